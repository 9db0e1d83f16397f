import Verif.Headers.Types
/-!
# JavaScript values and the N-API functions used by the conversions

`src/js/impls.rs` is written against the `napi` crate. On Node.js this is napi-rs 1.x over Node's N-API
(not in the repository: modelled from the documentation of N-API); on wasm it is the polyfill of
`napi-dispatcher/wasm`.
-/
namespace Verif.Js
open Text Headers

/-- What the crate is compiled for. The `cfg`s of src/js/impls.rs 6-14. -/
structure Env where
  /-- `target_arch = "wasm32"` -/
  wasm : Bool
  /-- Pointers of 64 bits (never on wasm). -/
  wide : Bool
  /-- Overflow checks (`debug_assertions`). -/
  checks : Bool
  deriving DecidableEq, Repr

/-- Width of `usize`. (language) -/
def Env.ptrBits (E : Env) : Nat := if E.wide && !E.wasm then 64 else 32

/-- A JavaScript number: NaN, an infinity, or `m * 2 ^ e`. Every finite double is of this form (so are
other numbers: the model has more numbers than JavaScript). The sign of zero is not modelled. (language) -/
inductive Num
  | nan
  | inf (neg : Bool)
  | fin (m e : Int)
  deriving DecidableEq, Repr

/-- JavaScript values. Strings are sequences of Unicode scalar values (a string with a lone surrogate is
not modelled); an object is the list of its own properties, the last write first; symbols, functions and
everything else are `other`. N-API's values. -/
inductive Js
  | undefined
  | null
  | bool (b : Bool)
  | num (x : Num)
  | bigint (n : Int)
  | str (s : Text)
  | buf (bytes : List UInt8)
  | obj (props : List (Text × Js))
  | other

/-- The status of a rejected conversion; the messages are not modelled. `napi::Status`, as used by
src/js/impls.rs 31-65. -/
inductive Err
  /-- `Status::InvalidArg` raised by the crate -/
  | invalidArg
  /-- raised by N-API because a value has another type than expected -/
  | wrongType
  /-- `Status::GenericFailure` -/
  | genericFailure
  /-- an exception thrown by JavaScript code -/
  | thrown (j : Nat)
  deriving DecidableEq, Repr

/-- `napi::Result`, or a panic. The return type of src/js/_mod.rs 40-51. -/
inductive Res (α : Type)
  | ok (a : α)
  | err (e : Err)
  | panic
  deriving Repr

instance {α : Type} [DecidableEq α] : DecidableEq (Res α) := fun
  | .ok a, .ok b => if h : a = b then .isTrue (by rw [h]) else .isFalse (by simpa using h)
  | .err a, .err b => if h : a = b then .isTrue (by rw [h]) else .isFalse (by simpa using h)
  | .panic, .panic => .isTrue rfl
  | .ok _, .err _ | .ok _, .panic | .err _, .ok _ | .err _, .panic | .panic, .ok _ | .panic, .err _ => .isFalse nofun

/-- `?`. (language) -/
def Res.bind {α β : Type} : Res α → (α → Res β) → Res β
  | .ok a, f => f a
  | .err e, _ => .err e
  | .panic, _ => .panic

/-- (core) -/
def Res.map {α β : Type} (f : α → β) (r : Res α) : Res β := r.bind fun a => .ok (f a)

/-! ### Integers -/

/-- (language) -/
def signed : IntTy → Bool
  | .i8 | .i16 | .i32 | .i64 | .isize => true
  | _ => false

/-- (language) -/
def bits (E : Env) : IntTy → Nat
  | .u8 | .i8 => 8
  | .u16 | .i16 => 16
  | .u32 | .i32 => 32
  | .u64 | .i64 => 64
  | .usize | .isize => E.ptrBits

/-- Least and greatest value of an integer type of `n` bits. (language) -/
def lo (s : Bool) (n : Nat) : Int := if s then -2 ^ (n - 1) else 0
/-- (language) See `lo`. -/
def hi (s : Bool) (n : Nat) : Int := if s then 2 ^ (n - 1) - 1 else 2 ^ n - 1

/-- Rust's `as` between integers: the value modulo `2 ^ n`. (language) -/
def wrap (s : Bool) (n : Nat) (v : Int) : Int :=
  if s then (v + 2 ^ (n - 1)) % 2 ^ n - 2 ^ (n - 1) else v % 2 ^ n

/-- Rust's `as` from a float to an integer, once truncated. (language) -/
def saturate (s : Bool) (n : Nat) (v : Int) : Int := if v < lo s n then lo s n else if hi s n < v then hi s n else v

/-- ECMAScript's truncation of a finite number. (language) -/
def trunc (m e : Int) : Int := if 0 ≤ e then m * 2 ^ e.toNat else m.tdiv (2 ^ (-e).toNat)

/-- `f64 as xN`: NaN becomes 0, other values are truncated and saturate. (language) -/
def asInt (s : Bool) (n : Nat) : Num → Int
  | .nan => 0
  | .inf neg => if neg then lo s n else hi s n
  | .fin m e => saturate s n (trunc m e)

/-- `JsNumber::try_into::<u32 | i32>`.
On Node.js, `napi_get_value_uint32` and `napi_get_value_int32`: ECMAScript's `ToUint32` and `ToInt32`
(non-finite numbers become 0, others are truncated and taken modulo `2 ^ 32`).
On wasm, napi-dispatcher/wasm/src/values.rs 147-151: `f64 as _`. -/
def get32 (E : Env) (s : Bool) : Num → Int
  | .fin m e => if E.wasm then asInt s 32 (.fin m e) else wrap s 32 (trunc m e)
  | x => if E.wasm then asInt s 32 x else 0

/-- `JsNumber::try_into::<i64>`.
On Node.js, `napi_get_value_int64`: non-finite numbers become 0, others are truncated and saturate.
On wasm, napi-dispatcher/wasm/src/values.rs 147-151: `f64 as _`. -/
def get64 (E : Env) : Num → Int
  | .fin m e => asInt true 64 (.fin m e)
  | x => if E.wasm then asInt true 64 x else 0

/-- `Number.MAX_SAFE_INTEGER`. src/js/impls.rs 133-135. -/
def maxSafe : Int := 2 ^ 53 - 1

/-- `JsBigint::get_u64`, `JsBigint::get_i64`: the value and whether it is the BigInt.
On Node.js, `napi_get_value_bigint_uint64` and `napi_get_value_bigint_int64`.
On wasm, napi-dispatcher/wasm/src/values.rs 43-86: BigInts between `-MAX_SAFE_INTEGER` and
`MAX_SAFE_INTEGER` become numbers (ll. 17-30), converted by `f64 as _`; others are written in decimal and
parsed. Simplification: the decimal text is not modelled, only the range test of `str::parse`. -/
def getBig (E : Env) (s : Bool) (n : Int) : Res (Int × Bool) :=
  if E.wasm then
    if -maxSafe ≤ n ∧ n ≤ maxSafe then .ok (asInt s 64 (.fin n 0), true)
    else if lo s 64 ≤ n ∧ n ≤ hi s 64 then .ok (n, true)
    else .err .invalidArg
  else .ok (wrap s 64 n, decide (wrap s 64 n = n))

/-- `napi_create_bigint_words`: the words, least significant first. N-API; called at src/js/impls.rs
165-168. -/
def bigWords (neg : Bool) (words : List Nat) : Int :=
  (if neg then -1 else 1) * (words.foldr (fun w acc => w + 2 ^ 64 * acc) 0 : Nat)

/-- The `typeof` of a value that `JsUnknown::get_type` reports as `ValueType::Object`. N-API;
src/js/impls.rs 266-352. -/
def isObject : Js → Bool
  | .obj _ | .buf _ => true
  | _ => false

/-- `JsObject::get_named_property::<JsUnknown>`. Simplification: a `Buffer` has no property `addr`,
`type`, `ptr`, … of its own, and properties of the prototypes are not modelled. N-API. -/
def prop (name : Text) : Js → Js
  | .obj ps => ((ps.find? (·.1 = name)).map (·.2)).getD .undefined
  | _ => .undefined

/-- `JsObject::set_named_property` on a fresh object. N-API. -/
def setProp (name : Text) (v : Js) : List (Text × Js) → List (Text × Js) := ((name, v) :: ·)

end Verif.Js
