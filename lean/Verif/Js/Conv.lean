import Verif.Js.Value
import Verif.CharP.Spec
/-!
# Conversions between C values and JavaScript values

Model of the `ReprNapi` implementations of `src/js/impls.rs`, `src/layout/impls.rs` and
`src/layout/macros.rs`.
-/
namespace Verif.Js
open Text Headers

/-! ### Integers -/

/-- The integers converted through 32 bits: src/js/impls.rs 6-14 (`usize` and `isize` only on wasm). -/
def small (E : Env) : IntTy → Bool
  | .u8 | .u16 | .u32 | .i8 | .i16 | .i32 => true
  | .usize | .isize => E.wasm
  | .u64 | .i64 => false

/-- `from_napi_value` of the small integers: src/js/impls.rs 31-50. Simplification: on wasm a value that is
not a number is not always rejected (casts are unchecked); no claim is made about it. -/
def fromSmall (E : Env) (k : IntTy) : Js → Res Int
  | .num x =>
      let n := get32 E (signed k) x
      let r := wrap (signed k) (bits E k) n
      if wrap (signed k) 32 r ≠ n then .err .invalidArg else .ok r
  | _ => .err .wrongType

/-- `to_napi_value` of the small integers: src/js/impls.rs 52-65. -/
def toSmall (k : IntTy) (v : Int) : Res Js :=
  if lo (signed k) 32 ≤ v ∧ v ≤ hi (signed k) 32 then .ok (.num (.fin v 0)) else .err .genericFailure

/-- `from_napi_value` of `u64` (`s = false`) and `i64` (`s = true`): src/js/impls.rs 81-125. -/
def from64 (E : Env) (s : Bool) : Js → Res Int
  | .bigint n => (getBig E s n).bind fun (v, lossless) => if lossless then .ok v else .err .invalidArg
  | .num x =>
      let i := get64 E x
      if lo s 64 ≤ i ∧ i ≤ hi s 64 then .ok i else .err .invalidArg
  | _ => .err .invalidArg

/-- `to_napi_value` of `u64` and `i64`: src/js/impls.rs 127-177. -/
def to64 (E : Env) (v : Int) : Js :=
  if -maxSafe ≤ v ∧ v ≤ maxSafe then .num (.fin v 0)
  else if E.wasm then .bigint v
  else
    let mag := v.natAbs
    .bigint (bigWords (decide (v < 0)) [mag % 2 ^ 64, mag / 2 ^ 64 % 2 ^ 64])

/-- `from_napi_value` of the integers; src/js/impls.rs 184-201 for `usize` and `isize` (not on wasm). -/
def fromInt (E : Env) (k : IntTy) (j : Js) : Res Int :=
  if small E k then fromSmall E k j
  else (from64 E (signed k) j).bind fun v =>
    if lo (signed k) (bits E k) ≤ v ∧ v ≤ hi (signed k) (bits E k) then .ok v else .err .invalidArg

/-- `to_napi_value` of the integers; src/js/impls.rs 203-209 for `usize` and `isize` (not on wasm). -/
def toInt (E : Env) (k : IntTy) (v : Int) : Res Js :=
  if small E k then toSmall k v else .ok (to64 E v)

/-! ### Floats -/

/-- `==` of doubles. (language) src/js/impls.rs 38. -/
def Num.eq : Num → Num → Bool
  | .nan, _ | _, .nan => false
  | .inf a, .inf b => a == b
  | .fin m e, .fin m' e' => m * 2 ^ (e - min e e').toNat == m' * 2 ^ (e' - min e e').toNat
  | _, _ => false

/-- `from_napi_value` of `f32` and `f64`: src/js/impls.rs 31-50, `narrow` being `as $xN as f64` (the
identity for `f64`). -/
def fromFloat (narrow : Num → Num) : Js → Res Num
  | .num x => if !(narrow x).eq x then .err .invalidArg else .ok (narrow x)
  | _ => .err .wrongType

/-! ### Pointers -/

/-- `str::replace`: leftmost matches that do not overlap. `skip` characters of a match remain. (core)
src/js/impls.rs 331-334. -/
def replaceGo (pat rep : Text) : Nat → Text → Text
  | _, [] => []
  | skip + 1, _ :: s => replaceGo pat rep skip s
  | 0, c :: s =>
      if pat.isPrefixOf (c :: s) then rep ++ replaceGo pat rep (pat.length - 1) s
      else c :: replaceGo pat rep 0 s

/-- (core) `str::replace`. -/
def replace (pat rep s : Text) : Text := replaceGo pat rep 0 s

/-- src/js/impls.rs 231-237, 323-327: the `type` property of a pointer. `b` gives the names of the declared
types. -/
def ptrType (b : Nat → Text) (const : Bool) (to : CTy) : Text :=
  cName b to ++ t!" " ++ (if const then t!"const " else []) ++ t!"*"

/-- src/js/impls.rs 331-334. -/
def constify (s : Text) : Text := replace t!" *" t!" const *" (replace t!"const *" t!"*" s)

/-- A raw pointer received by native code: an address, or a pointer to the contents of a JavaScript
buffer. Not in the code: the `*const T` of src/js/impls.rs 266-352. -/
inductive Ptr
  | addr (a : Nat)
  | mem (bytes : List UInt8)
  deriving DecidableEq, Repr

/-- `buf.len() - 1`: src/js/impls.rs 300. -/
def lenMinusOne (E : Env) (n : Nat) : Res Nat :=
  if n = 0 then (if E.checks then .panic else .ok (2 ^ E.ptrBits - 1)) else .ok (n - 1)

/-- A `Buffer` where a `char const *` is expected: src/js/impls.rs 273-310. -/
def fromBuffer (E : Env) (bytes : List UInt8) : Res Ptr :=
  if !CharP.validUtf8 bytes then .err .invalidArg
  else (lenMinusOne E bytes.length).bind fun last =>
    if CharP.position bytes ≠ some last then .err .invalidArg else .ok (.mem bytes)

/-- `from_napi_value` of a `{ addr, type }` object: src/js/impls.rs 317-352. `get_named_property` of the
type fails unless it is a string (Node.js). -/
def fromPtrObj (E : Env) (b : Nat → Text) (const : Bool) (to : CTy) (j : Js) : Res Ptr :=
  match prop t!"type" j with
  | .str ty =>
      let actual := if const then constify ty else ty
      if actual ≠ ptrType b const to then .err .invalidArg
      else (fromInt E .usize (prop t!"addr" j)).map fun a => .addr a.toNat
  | _ => .err .wrongType

/-- src/js/impls.rs 274-275: the type of the pointee is `c_char`. -/
def isCChar : CTy → Bool
  | .cchar => true
  | _ => false

/-- `from_napi_value` of raw pointers: src/js/impls.rs 266-352. -/
def fromPtr (E : Env) (b : Nat → Text) (const : Bool) (to : CTy) : Js → Res Ptr
  | .null => .ok (.addr 0)
  | .buf bytes => if const && isCChar to then fromBuffer E bytes else fromPtrObj E b const to (.buf bytes)
  | .obj ps => fromPtrObj E b const to (.obj ps)
  | _ => .err .invalidArg

/-- `to_napi_value` of raw pointers: src/js/impls.rs 224-263. -/
def toPtr (E : Env) (b : Nat → Text) (const : Bool) (to : CTy) (a : Nat) : Res Js :=
  if a = 0 then .ok .null
  else (toInt E .usize a).bind fun addr =>
    .ok (.obj (setProp t!"type" (.str (ptrType b const to)) (setProp t!"addr" addr [])))

/-! ### All types -/

/-- The C types with conversions: integers, floats, `bool`, `void` (and `PhantomData`), raw pointers,
`[u8; n]`, enums (variant names and discriminants), structs (field names and types). `sliceRef` marks the
layout of `slice_ref<u8>`, which also accepts buffers and null. A transparent newtype is converted as its
field (src/proc_macro/derives/c_type/struct_.rs 291-321). -/
inductive JTy
  | int (k : IntTy)
  | f32 | f64
  | bool | void
  | ptr (const : Bool) (to : CTy)
  | bytes (n : Nat)
  | enum (variants : List (Text × Int))
  | struct (sliceRef : Bool) (names : List Text) (fields : List JTy)

/-- Values of these types; those of `[u8; n]` and of structs are lists, in order. The values of the types
cited at `JTy`. -/
inductive Val
  | int (v : Int)
  | float (x : Num)
  | bool (b : Bool)
  | void
  | ptr (p : Ptr)
  | bytes (bs : List UInt8)
  | disc (d : Int)
  | struct (vs : List Val)

/-- `match self { Enum::Variant => "Variant", … }`: src/layout/macros.rs 248-263. A value that is no
variant panics. -/
def toEnum (variants : List (Text × Int)) (d : Int) : Res Js :=
  match variants.find? (·.2 = d) with
  | some (name, _) => .ok (.str name)
  | none => .panic

/-- src/layout/macros.rs 265-286. -/
def fromEnum (variants : List (Text × Int)) : Js → Res Int
  | .str s => match variants.find? (·.1 = s) with
      | some (_, d) => .ok d
      | none => .err .invalidArg
  | _ => .err .wrongType

/-- `[u8; n]`: src/js/impls.rs 399-406. -/
def fromBytes (n : Nat) : Js → Res (List UInt8)
  | .buf bs => if bs.length = n then .ok bs else .err .invalidArg
  | _ => .err .wrongType

section
variable (E : Env) (b : Nat → Text) (narrow : Num → Num)

mutual
/-- `to_napi_value`: src/layout/impls.rs 804-814 (`bool`), src/js/impls.rs 373-377 (`void`), 395-397
(`[u8; n]`), src/layout/macros.rs 138-158 (structs), and the functions above. A pointer to the contents of
a buffer is never sent back. -/
def toJs : JTy → Val → Res Js
  | .int k, .int v => toInt E k v
  | .f32, .float x => .ok (.num x)
  | .f64, .float x => .ok (.num x)
  | .bool, .bool v => .ok (.bool v)
  | .void, .void => .ok .undefined
  | .ptr const to, .ptr (.addr a) => toPtr E b const to a
  | .bytes _, .bytes bs => .ok (.buf bs)
  | .enum variants, .disc d => toEnum variants d
  | .struct _ names fields, .struct vs => (toProps names fields vs []).map .obj
  | _, _ => .panic
/-- src/layout/macros.rs 143-156: one property per field, in order. -/
def toProps : List Text → List JTy → List Val → List (Text × Js) → Res (List (Text × Js))
  | name :: names, ty :: tys, v :: vs, ps =>
      (toJs ty v).bind fun j => toProps names tys vs (setProp name j ps)
  | _, _, _, ps => .ok ps
end

mutual
/-- `from_napi_value`: src/layout/impls.rs 816-822 (`bool`), src/js/impls.rs 379-386 (`void`),
src/layout/macros.rs 160-227 (structs), and the functions above. -/
def fromJs : JTy → Js → Res Val
  | .int k, j => (fromInt E k j).map .int
  | .f32, j => (fromFloat narrow j).map .float
  | .f64, j => (fromFloat id j).map .float
  | .bool, .bool v => .ok (.bool v)
  | .bool, _ => .err .wrongType
  | .void, .undefined => .ok .void
  | .void, _ => .err .wrongType
  | .ptr const to, j => (fromPtr E b const to j).map .ptr
  | .bytes n, j => (fromBytes n j).map .bytes
  | .enum variants, j => (fromEnum variants j).map .disc
  | .struct sliceRef names fields, j =>
      match sliceRef, j with
      | true, .buf bs => .ok (.struct [.ptr (.mem bs), .int bs.length, .void])
      | true, .null => .ok (.struct [.ptr (.addr 0), .int 0xbad000, .void])
      | _, _ => if isObject j then (fromProps names fields j).map .struct else .err .wrongType
/-- src/layout/macros.rs 212-225: the fields in order, the first error returned. -/
def fromProps : List Text → List JTy → Js → Res (List Val)
  | name :: names, ty :: tys, j =>
      (fromJs ty (prop name j)).bind fun v => (fromProps names tys j).map (v :: ·)
  | _, _, _ => .ok []
end

/-! ### Exported functions -/

/-- The arguments in order, the first error returned: src/proc_macro/ffi_export/fn_/mod.rs 270-279. -/
def fromArgs : List JTy → List Js → Res (List Val)
  | ty :: tys, j :: js => (fromJs E b narrow ty j).bind fun v => (fromArgs tys js).map (v :: ·)
  | [], [] => .ok []
  | _, _ => .err .wrongType

/-- The JavaScript function of `#[ffi_export(js)]`: src/proc_macro/ffi_export/fn_/mod.rs 262-283,
329-334. `fn` is the native function; the result also tells the calls made to it. A call with another
number of arguments is not modelled (JavaScript passes `undefined` for missing arguments). -/
def callExport (params : List JTy) (ret : JTy) (fn : List Val → Val) (js : List Js) : List (List Val) × Res Js :=
  match fromArgs E b narrow params js with
  | .ok args => ([args], toJs E b ret (fn args))
  | .err e => ([], .err e)
  | .panic => ([], .panic)
end

end Verif.Js
