import Verif.Js.Value
/-!
# The polyfill of N-API for wasm

`napi-dispatcher/wasm/src` lets code that is written against the `napi` crate run on wasm, on top of
`wasm-bindgen`. Modelled here: how values are created, told apart, converted, read and written, and how
errors cross. `wasm-bindgen` and `js-sys` are not in the repository: what their functions do is taken
from their documentation.
-/
namespace Verif.Poly
open Js (Num Res Err asInt)

/-- A JavaScript string: UTF-16 code units, well-formed or not. (language) -/
abbrev Units := List UInt16

/-! ### Strings -/

/-- First half of a surrogate pair. (language) -/
def isHigh (u : UInt16) : Bool := 0xD800 ≤ u.toNat && u.toNat < 0xDC00

/-- Second half of a surrogate pair. (language) -/
def isLow (u : UInt16) : Bool := 0xDC00 ≤ u.toNat && u.toNat < 0xE000

/-- UTF-16 of a scalar value. (language) -/
def encodeChar (c : Char) : Units :=
  if c.toNat < 0x10000 then [UInt16.ofNat c.toNat]
  else [UInt16.ofNat (0xD800 + (c.toNat - 0x10000) / 0x400), UInt16.ofNat (0xDC00 + (c.toNat - 0x10000) % 0x400)]

/-- A Rust string to JavaScript. `JsValue::from_str` of wasm-bindgen (a `TextDecoder`), used by
napi-dispatcher/wasm/src/env.rs 54-69 and values.rs 188, 203. -/
def encode (s : List Char) : Units := s.flatMap encodeChar

/-- A JavaScript string to Rust: surrogates without their other half become U+FFFD. `String::from` of
`js_sys::JsString` (a `TextEncoder`), used by napi-dispatcher/wasm/src/values.rs 285. -/
def decode : Units → List Char
  | [] => []
  | [a] => [if isHigh a || isLow a then Char.ofNat 0xFFFD else Char.ofNat a.toNat]
  | a :: b :: rest =>
    if isHigh a then
      if isLow b then Char.ofNat (0x10000 + (a.toNat - 0xD800) * 0x400 + (b.toNat - 0xDC00)) :: decode rest
      else Char.ofNat 0xFFFD :: decode (b :: rest)
    else (if isLow a then Char.ofNat 0xFFFD else Char.ofNat a.toNat) :: decode (b :: rest)

/-! ### Numbers -/

/-- `a / 2 ^ e`, rounded to the nearest, halves to even. (language) -/
def roundAt (e a : Nat) : Nat :=
  if 2 * (a % 2 ^ e) < 2 ^ e then a / 2 ^ e
  else if 2 ^ e < 2 * (a % 2 ^ e) then a / 2 ^ e + 1
  else a / 2 ^ e + (a / 2 ^ e) % 2

/-- `xN as f64` for the integer types: the nearest double. napi-dispatcher/wasm/src/values.rs 157-163
(used by env.rs 23-35, 71-76). -/
def ofInt (i : Int) : Num :=
  if i.natAbs ≤ 2 ^ 53 then .fin i 0
  else .fin (i.sign * roundAt (i.natAbs.log2 - 52) i.natAbs) (i.natAbs.log2 - 52 : Nat)

/-! ### Values -/

/-- JavaScript values. Objects, arrays, functions and so on are references to the heap. (language) -/
inductive V
  | undefined
  | null
  | bool (b : Bool)
  | num (x : Num)
  | bigint (n : Int)
  | str (s : Units)
  | symbol (k : Nat)
  | obj (i : Nat)
  deriving DecidableEq, Repr

/-- What an object is. (language) -/
inductive Kind
  | plain | array | bytes | error | promise | function
  deriving DecidableEq, Repr

/-- Keys of properties: an array index, or another name. (language) -/
inductive Key
  | index (i : Nat)
  | name (s : Units)
  deriving DecidableEq, Repr

/-- An object. Properties are data properties; getters, setters and proxies are not modelled. (language) -/
structure Obj where
  kind : Kind
  /-- own enumerable properties, the last write first -/
  props : List (Key × V) := []
  /-- length of an array -/
  len : Nat := 0
  /-- contents of a `Uint8Array` -/
  bytes : List UInt8 := []
  /-- message of an error (an own property that is not enumerable) -/
  message : Units := []
  /-- `Object.freeze` -/
  frozen : Bool := false
  deriving DecidableEq, Repr

/-- All objects. (language) -/
abbrev Heap := List Obj

/-- A name of ASCII characters. (language) -/
def ascii (s : String) : Units := encode s.toList

/-- Is the code unit a decimal digit? (language) -/
def isDigit (u : UInt16) : Bool := 48 ≤ u.toNat && u.toNat ≤ 57

/-- Which names are array indices: decimal numbers without leading zeros, below `2 ^ 32 - 1`. (language) -/
def keyOf (s : Units) : Key :=
  let n := s.foldl (fun n u => 10 * n + (u.toNat - 48)) 0
  if s ≠ [] ∧ s.all isDigit = true ∧ (s.head? = some 48 → s.length = 1) ∧ n < 2 ^ 32 - 1 then .index n else .name s

/-- What the model leaves to the JavaScript engine: properties inherited from the prototypes, writes
that are no plain assignment of a property, `JSON.stringify`, and what else `serde` reads as an error.
(language) -/
structure Engine where
  /-- Properties of the prototype of a kind of objects. -/
  inherited : Kind → Key → V
  /-- Assignments to the length of an array, to typed arrays and to `__proto__`. -/
  exotic : Heap → Nat → Key → V → Res Heap
  /-- `JSON.stringify` does not throw. -/
  stringifies : Heap → V → Bool
  /-- Error that `serde_json` gets from a value that is no object with strings `reason` and `status`.
  lib.rs 66-71 derives `Deserialize`, which takes arrays and other forms of variants too. -/
  otherJson : Heap → V → Option (List Char × Nat)
  /-- Text of the error of `serde_json`, followed by the value as `Debug` shows it. lib.rs 189. -/
  shown : Heap → V → List Char

/-- Assignments with a meaning of their own. (language) -/
def special (o : Obj) (k : Key) : Bool :=
  k == .name (ascii "__proto__") || o.kind == .bytes || (o.kind == .array && k == .name (ascii "length"))

/-- Reading a property of an object. (language) -/
def Obj.get (G : Engine) (o : Obj) (k : Key) : V :=
  match o.kind, k with
  | .bytes, .index i => match o.bytes[i]? with
    | some b => .num (.fin b.toNat 0)
    | none => .undefined
  | kd, k =>
    if kd = .array ∧ k = .name (ascii "length") then .num (.fin o.len 0)
    else if kd = .bytes ∧ k = .name (ascii "length") then .num (.fin o.bytes.length 0)
    else match o.props.lookup k with
      | some v => v
      | none => if kd = .error ∧ k = .name (ascii "message") then .str o.message else G.inherited kd k

/-- Assigning a property that is not special, on an object that is not frozen. The length of an array
grows with its greatest index. (language) -/
def Obj.set (o : Obj) (k : Key) (v : V) : Obj :=
  { o with
    props := (k, v) :: o.props
    len := match k with
      | .index i => if o.kind = .array then max o.len (i + 1) else o.len
      | .name _ => o.len }

/-- `JsObject::get_named_property`: `Reflect.get`, which throws if the target is no object. The type that
is asked for is not checked. napi-dispatcher/wasm/src/values.rs 181-192. -/
def getNamed (G : Engine) (h : Heap) (o : V) (name : List Char) : Res V :=
  match o with
  | .obj i => match h[i]? with
    | some ob => .ok (ob.get G (keyOf (encode name)))
    | none => .panic
  | _ => .err (.thrown 0)

/-- `JsObject::set_named_property`: `Reflect.set`, with an error if it gives false (as on frozen objects)
or throws (no object). napi-dispatcher/wasm/src/values.rs 195-215. -/
def setNamed (G : Engine) (h : Heap) (o : V) (name : List Char) (v : V) : Res Heap :=
  match o with
  | .obj i => match h[i]? with
    | some ob =>
      if special ob (keyOf (encode name)) then G.exotic h i (keyOf (encode name)) v
      else if ob.frozen then .err .genericFailure
      else .ok (h.set i (ob.set (keyOf (encode name)) v))
    | none => .panic
  | _ => .err (.thrown 0)

/-- `ValueType`. napi-dispatcher/wasm/src/lib.rs 102-116. -/
inductive ValueType
  | bigint | boolean | function | null | number | object | string | symbol | undefined | unknown
  deriving DecidableEq, Repr

/-- JavaScript's `typeof`. (language) -/
def typeOf (h : Heap) : V → String
  | .undefined => "undefined"
  | .null => "object"
  | .bool _ => "boolean"
  | .num _ => "number"
  | .bigint _ => "bigint"
  | .str _ => "string"
  | .symbol _ => "symbol"
  | .obj i => match h[i]? with
    | some o => if o.kind = .function then "function" else "object"
    | none => "object"

/-- `JsUnknown::get_type`. napi-dispatcher/wasm/src/values.rs 291-316. -/
def getType (h : Heap) (v : V) : ValueType :=
  match typeOf h v with
  | "undefined" => .undefined
  | "object" => if v = .null then .null else .object
  | "boolean" => .boolean
  | "number" => .number
  | "bigint" => .bigint
  | "string" => .string
  | "symbol" => .symbol
  | "function" => .function
  | _ => .unknown

/-- The wrappers. napi-dispatcher/wasm/src/lib.rs 73-86. -/
inductive Ty
  | bigint | boolean | buffer | function | number | promise | object | string | null | undefined
  deriving DecidableEq, Repr

/-- `v` is an object of kind `k`. (language) -/
def isKind (h : Heap) (k : Kind) : V → Bool
  | .obj i => match h[i]? with
    | some o => o.kind = k
    | none => false
  | _ => false

/-- `v` is a reference. (language) -/
def isRef : V → Bool
  | .obj _ => true
  | _ => false

/-- `JsCast::is_type_of` of the wrapped types: js-sys compares `typeof` for primitive types, uses
`instanceof` for others, and every value is a `JsValue`. Objects without `Object.prototype` are not modelled.
napi-dispatcher/wasm/src/lib.rs 74-83. -/
def isTypeOf (h : Heap) (t : Ty) (v : V) : Bool :=
  match t with
  | .bigint | .null | .undefined => true
  | .boolean => typeOf h v == "boolean"
  | .number => typeOf h v == "number"
  | .string => typeOf h v == "string"
  | .function => typeOf h v == "function"
  | .buffer => isKind h .bytes v
  | .promise => isKind h .promise v
  | .object => isRef v

/-- `TryFrom<JsUnknown>`: `dyn_into` of the wrapped type. napi-dispatcher/wasm/src/utils.rs 41-52. -/
def tryFrom (h : Heap) (t : Ty) (v : V) : Res V := if isTypeOf h t v then .ok v else .err .wrongType

/-- `JsCast::has_type` for the wrappers: they define `instanceof` only, so this is JavaScript's
`instanceof`, which is false for primitive values. napi-dispatcher/wasm/src/utils.rs 72-95. -/
def hasType (h : Heap) (t : Ty) (v : V) : Bool :=
  match t with
  | .bigint | .null | .undefined => true
  | .boolean | .number | .string => false
  | .function => isKind h .function v
  | .buffer => isKind h .bytes v
  | .promise => isKind h .promise v
  | .object => isRef v

/-- `JsUnknown::is_buffer`. napi-dispatcher/wasm/src/values.rs 319-323. -/
def isBuffer (h : Heap) (v : V) : Bool := hasType h .buffer v

/-! ### Creating and reading values -/

/-- A new object. (language) -/
def alloc (h : Heap) (o : Obj) : Heap × V := (h ++ [o], .obj h.length)

/-- `Env::create_array`. napi-dispatcher/wasm/src/env.rs 6-13. -/
def createArray (h : Heap) : Heap × V := alloc h { kind := .array }

/-- `Env::create_object`. napi-dispatcher/wasm/src/env.rs 44-51. -/
def createObject (h : Heap) : Heap × V := alloc h { kind := .plain }

/-- `Env::create_buffer_copy`. napi-dispatcher/wasm/src/env.rs 14-21. -/
def createBuffer (h : Heap) (xs : List UInt8) : Heap × V := alloc h { kind := .bytes, bytes := xs }

/-- `Env::create_int32`, `create_int64`, `create_uint32`. napi-dispatcher/wasm/src/env.rs 23-35, 71-76. -/
def createInt (i : Int) : V := .num (ofInt i)

/-- `Env::create_double`. napi-dispatcher/wasm/src/env.rs 37-42. -/
def createDouble (x : Num) : V := .num x

/-- `Env::create_string`, `create_string_from_std`. napi-dispatcher/wasm/src/env.rs 53-69. -/
def createString (s : List Char) : V := .str (encode s)

/-- `Env::get_boolean`. napi-dispatcher/wasm/src/env.rs 78-85. -/
def getBoolean (b : Bool) : V := .bool b

/-- `Env::get_null`. napi-dispatcher/wasm/src/env.rs 87-94. -/
def getNull : V := .null

/-- `Env::get_undefined`. napi-dispatcher/wasm/src/env.rs 96-103. -/
def getUndefined : V := .undefined

/-- `TryFrom<JsNumber>` for an integer type of `n` bits: `f64 as _`.
napi-dispatcher/wasm/src/values.rs 144-152. A `JsNumber` that holds no number is not modelled (panic). -/
def readInt (s : Bool) (n : Nat) : V → Res Int
  | .num x => .ok (asInt s n x)
  | _ => .panic

/-- `TryFrom<JsNumber> for f64`. napi-dispatcher/wasm/src/values.rs 144-152. -/
def readDouble : V → Res Num
  | .num x => .ok x
  | _ => .panic

/-- `JsBoolean::get_value`. napi-dispatcher/wasm/src/values.rs 97-104. -/
def readBool : V → Res Bool
  | .bool b => .ok b
  | _ => .panic

/-- `JsString::into_utf8`, then `as_str`, `into_owned` or `take`. napi-dispatcher/wasm/src/values.rs 256-287. -/
def readString : V → Res (List Char)
  | .str u => .ok (decode u)
  | _ => .panic

/-- `JsBuffer::into_value`. napi-dispatcher/wasm/src/values.rs 107-112. -/
def readBuffer (h : Heap) : V → Res (List UInt8)
  | .obj i => match h[i]? with
    | some o => if o.kind = .bytes then .ok o.bytes else .panic
    | none => .panic
  | _ => .panic

/-- `JsObject::get_array_length`. napi-dispatcher/wasm/src/values.rs 217-233. -/
def arrayLength (G : Engine) (h : Heap) (o : V) : Res Int :=
  (getNamed G h o "length".toList).bind fun unk =>
    if getType h unk = .number then readInt false 32 unk else .err .invalidArg

/-- The property key of `arr[idx]` for an `u32`: `2 ^ 32 - 1` is no array index but a name. (language) -/
def elemKey (idx : Nat) : Key := if idx < 2 ^ 32 - 1 then .index idx else .name (ascii (toString idx))

/-- `JsObject::get_element`: `arr[idx]`, unchecked. Reading from `null` or `undefined` throws through the
Rust frames, as nothing catches it. Simplification: primitive values have no elements (strings have).
napi-dispatcher/wasm/src/values.rs 235-253. -/
def element (G : Engine) (h : Heap) (o : V) (idx : Nat) : Res V :=
  match o with
  | .obj i => match h[i]? with
    | some ob => .ok (ob.get G (elemKey idx))
    | none => .panic
  | .null | .undefined => .panic
  | _ => .ok .undefined

/-! ### Errors -/

/-- `Status`. napi-dispatcher/wasm/src/lib.rs 93-100. -/
inductive Status
  | ok | invalidArg | genericFailure
  deriving DecidableEq, Repr

/-- `Error`. napi-dispatcher/wasm/src/lib.rs 66-71. -/
structure Error where
  reason : List Char
  status : Status
  deriving DecidableEq, Repr

/-- `Error::from_status`. napi-dispatcher/wasm/src/lib.rs 159-164. -/
def Error.fromStatus (s : Status) : Error := ⟨[], s⟩

/-- `Error::from_reason`. napi-dispatcher/wasm/src/lib.rs 166-171. -/
def Error.fromReason (r : List Char) : Error := ⟨r, .genericFailure⟩

/-- `From<Error> for JsValue`: a JavaScript `Error` with the reason as its message.
napi-dispatcher/wasm/src/lib.rs 174-182. -/
def Error.toJs (h : Heap) (e : Error) : Heap × V := alloc h { kind := .error, message := encode e.reason }

/-- Names of the variants in JSON. `derive(Deserialize)` of napi-dispatcher/wasm/src/lib.rs 93-100. -/
def statusOf (s : Units) : Option Status :=
  if s = ascii "Ok" then some .ok
  else if s = ascii "InvalidArg" then some .invalidArg
  else if s = ascii "GenericFailure" then some .genericFailure
  else none

/-- The number of a status in `Engine.otherJson`. (model) -/
def statusNat : Nat → Status
  | 0 => .ok
  | 1 => .invalidArg
  | _ => .genericFailure

/-- `serde_json` on the JSON of a value: an object whose enumerable properties `reason` and `status` are
strings (without lone surrogates, the second one the name of a variant). A missing property is an error.
`derive(Deserialize)` of napi-dispatcher/wasm/src/lib.rs 66-71; other forms are left to the engine. -/
def fromJson (G : Engine) (h : Heap) (v : V) : Option Error :=
  let other := (G.otherJson h v).map fun x => ⟨x.1, statusNat x.2⟩
  match v with
  | .obj i => match h[i]? with
    | some o =>
      if o.kind = .plain ∨ o.kind = .error then
        match o.props.lookup (.name (ascii "reason")), o.props.lookup (.name (ascii "status")) with
        | some (.str r), some (.str s) =>
          if encode (decode r) = r then (statusOf s).map (⟨decode r, ·⟩) else none
        | none, _ => none
        | _, none => none
        | _, _ => other
      else other
    | none => none
  | _ => other

/-- `From<JsValue> for Error`: through JSON if possible, otherwise a generic failure that shows the value.
`into_serde` panics if `JSON.stringify` throws. napi-dispatcher/wasm/src/lib.rs 184-191. -/
def Error.fromJs (G : Engine) (h : Heap) (v : V) : Res Error :=
  if G.stringifies h v then .ok ((fromJson G h v).getD (.fromReason (G.shown h v))) else .panic

end Verif.Poly
