import Verif.Js.Conv
/-!
# The JavaScript helper functions

Model of src/js/ffi_helpers.rs. Native memory is typed: an address holds a cell, the contents of an
allocation or of a variable of the helper. Each helper that owns a variable or a buffer takes its address
(`at`). Undefined behaviour (reading or releasing what is not there) counts as a panic.

Simplification: a JavaScript string is a list of Unicode scalar values; unpaired surrogates, which N-API
replaces by U+FFFD, are not modelled.
-/
namespace Verif.Js
open Text Headers
open CharP (utf8 position toStr readN)

/-- Not in the code: what an address can hold. -/
inductive Cell
  | bytes (bs : List UInt8)
  | u64 (v : Nat)
  | bool (v : Bool)
  | slice (ptr len : Nat)
  | vec (ptr len cap : Nat)
  | ptrs (ps : List Nat)

/-- Not in the code: native memory. -/
abbrev Mem := Nat → Option Cell

/-- (language) A write, or a release. -/
def Mem.set (m : Mem) (a : Nat) (c : Option Cell) : Mem := fun x => if x = a then c else m x

/-- A JavaScript callback: given its argument and the native memory, its result and what it makes of the
memory, through the native functions it calls. The `JsFunction` of src/js/ffi_helpers.rs 50-89. -/
abbrev Cb := Js → Mem → Res (Js × Mem)

/-- The types of the helpers. `char const *`: src/c_char.rs 22-26. -/
abbrev cchar : CTy := .cchar
/-- `uint8_t`: src/layout/impls.rs 25-26. -/
abbrev u8 : CTy := .int .u8
/-- `slice_raw<u8>` and `slice_boxed<u8>`: src/slice.rs 45-56, 119-128. -/
def sliceRaw : JTy := .struct false [t!"ptr", t!"len"] [.ptr false u8, .int .usize]
/-- `slice_ref<u8>`: src/slice.rs 280-296. -/
def sliceRef : JTy := .struct true [t!"ptr", t!"len", t!"_lt"] [.ptr true u8, .int .usize, .void]
/-- `Vec<char_p::Box>`: src/vec.rs 12-17; a `char_p::Box` is a `char *`. -/
def vecOfStrings : JTy := .struct false [t!"ptr", t!"len", t!"cap"] [.ptr false (.mutPtr cchar), .int .usize, .int .usize]

section
variable (E : Env) (b : Nat → Text)

/-! ### To native code -/

/-- `withCString`: src/js/ffi_helpers.rs 50-89. -/
def withCString (at_ : Nat) (fst : Js) (cb : Cb) (m : Mem) : Res (Js × Mem) :=
  let call (bytes : List UInt8) : Res (Js × Mem) :=
    (toPtr E b true cchar at_).bind fun p => cb p (m.set at_ (some (.bytes bytes)))
  match fst with
  | .null => (toPtr E b true cchar 0).bind fun p => cb p m
  | .str s =>
      let bytes := utf8 s
      match position bytes with
      | some n => if n = bytes.length - 1 then call bytes else .err .invalidArg
      | none => call (bytes ++ [0])
  | _ => .err .invalidArg

/-- `withCBytes`: src/js/ffi_helpers.rs 93-128. `at_` is where the contents of the buffer are. -/
def withCBytes (at_ : Nat) (fst : Js) (cb : Cb) (m : Mem) : Res (Js × Mem) :=
  match fst with
  | .buf bytes => (toJs E b sliceRaw (.struct [.ptr (.addr at_), .int bytes.length])).bind fun s =>
      cb s (m.set at_ (some (.bytes bytes)))
  | .null => (toJs E b sliceRaw (.struct [.ptr (.addr 0), .int 0xbad000])).bind fun s => cb s m
  | _ => .err .invalidArg

/-! ### From native code -/

/-- The text of UTF-8 bytes (`create_string`). (std) src/js/ffi_helpers.rs 148. -/
def decode (s : List UInt8) : Option Text := (String.fromUTF8? ⟨s.toArray⟩).map String.toList

/-- `create_string(p.to_str())`: src/char_p.rs 223-231. -/
def textOf (bytes : List UInt8) : Res Text :=
  match toStr bytes with
  | .ok s => match decode s with
      | some t => .ok t
      | none => .panic
  | .error _ => .panic

/-- The bytes of the allocation at an address, or of the buffer. (language) -/
def bytesAt (m : Mem) : Ptr → Res (List UInt8)
  | .addr a => match m a with
      | some (.bytes bs) => .ok bs
      | _ => .panic
  | .mem bs => .ok bs

/-- `refCStringToString`: src/js/ffi_helpers.rs 188-207. -/
def refCStringToString (arg : Js) (m : Mem) : Res (Js × Mem) :=
  (fromPtr E b true cchar arg).bind fun p =>
    if p = .addr 0 then .ok (.null, m)
    else ((bytesAt m p).bind textOf).map fun t => (.str t, m)

/-- Dropping the owned allocation. src/char_p.rs 506-522, src/slice.rs 202-219: `Drop`. -/
def release (m : Mem) : Ptr → Mem
  | .addr a => m.set a none
  | .mem _ => m

/-- `boxCStringIntoString`: src/js/ffi_helpers.rs 132-151. The box is dropped at the end. -/
def boxCStringIntoString (arg : Js) (m : Mem) : Res (Js × Mem) :=
  (fromPtr E b false cchar arg).bind fun p =>
    if p = .addr 0 then .ok (.null, m)
    else ((bytesAt m p).bind textOf).map fun t => (.str t, release m p)

/-- The first `len` bytes: `slice::from_raw_parts`. (core) -/
def firstBytes (bs : List UInt8) (len : Int) : Res (List UInt8) :=
  match readN bs len.toNat with
  | .ok x => .ok x
  | .error _ => .panic

/-- `boxCBytesIntoBuffer`: src/js/ffi_helpers.rs 232-250. The box is dropped at the end, with the size it
was made of. -/
def boxCBytesIntoBuffer (arg : Js) (m : Mem) : Res (Js × Mem) :=
  (fromJs E b id sliceRaw arg).bind fun
    | .struct [.ptr p, .int len] =>
        if p = .addr 0 then .ok (.null, m)
        else (bytesAt m p).bind fun bs => (firstBytes bs len).bind fun x =>
          if x.length = bs.length then .ok (.buf x, release m p) else .panic
    | _ => .panic

/-- `refCBytesIntoBuffer`: src/js/ffi_helpers.rs 254-272. -/
def refCBytesIntoBuffer (arg : Js) (m : Mem) : Res (Js × Mem) :=
  (fromJs E b id sliceRef arg).bind fun
    | .struct [.ptr p, .int len, _] =>
        if p = .addr 0 then .ok (.null, m)
        else (bytesAt m p).bind fun bs => (firstBytes bs len).map fun x => (.buf x, m)
    | _ => .panic

/-! ### Out-parameters -/

/-- `withOutBoolean`: src/js/ffi_helpers.rs 277-291. -/
def withOutBoolean (at_ : Nat) (cb : Cb) (m : Mem) : Res (Js × Mem) :=
  (toPtr E b false .bool at_).bind fun p =>
    (cb p (m.set at_ (some (.bool false)))).bind fun (_, m') =>
      match m' at_ with
      | some (.bool v) => (toJs E b .bool (.bool v)).map fun j => (j, m')
      | _ => .panic

/-- `withOutU64`: src/js/ffi_helpers.rs 295-309; the result is converted as an `i64`. -/
def withOutU64 (at_ : Nat) (cb : Cb) (m : Mem) : Res (Js × Mem) :=
  (toPtr E b false (.int .u64) at_).bind fun p =>
    (cb p (m.set at_ (some (.u64 0)))).bind fun (_, m') =>
      match m' at_ with
      | some (.u64 v) => (toInt E .i64 (wrap true 64 v)).map fun j => (j, m')
      | _ => .panic

/-- `wrap_ptr`: src/js/ffi_helpers.rs 311-324. -/
def wrapPtr (p : Nat) (ty : Text) : Res Js :=
  (toInt E .usize p).bind fun addr => .ok (.obj (setProp t!"type" (.str ty) (setProp t!"addr" addr [])))

/-- `withOutBoxCBytes`: src/js/ffi_helpers.rs 328-350. -/
def withOutBoxCBytes (at_ : Nat) (cb : Cb) (m : Mem) : Res (Js × Mem) :=
  (wrapPtr E at_ t!"slice_boxed_uint8_t *").bind fun p =>
    (cb p (m.set at_ (some (.slice 0 0)))).bind fun (_, m') =>
      match m' at_ with
      | some (.slice ptr len) =>
          (wrapPtr E ptr t!"uint8_t *").bind fun ptr =>
            (toInt E .usize len).bind fun len => .ok (.obj (setProp t!"len" len (setProp t!"ptr" ptr [])), m')
      | _ => .panic

/-- `withOutVecOfPtrs`: src/js/ffi_helpers.rs 354-387. -/
def withOutVecOfPtrs (at_ : Nat) (vecTy ty : Text) (cb : Cb) (m : Mem) : Res (Js × Mem) :=
  (wrapPtr E at_ (vecTy ++ t!" *")).bind fun p =>
    (cb p (m.set at_ (some (.vec 0 0 0)))).bind fun (_, m') =>
      match m' at_ with
      | some (.vec ptr len cap) =>
          (wrapPtr E ptr (ty ++ t!" *")).bind fun ptr =>
            (toInt E .usize len).bind fun len => (toInt E .usize cap).bind fun cap =>
              .ok (.obj (setProp t!"cap" cap (setProp t!"len" len (setProp t!"ptr" ptr []))), m')
      | _ => .panic

/-- The strings, each dropped once it has been converted: src/js/ffi_helpers.rs 408-414. -/
def takeStrings : List Nat → Mem → Res (List Text × Mem)
  | [], m => .ok ([], m)
  | p :: ps, m => ((bytesAt m (.addr p)).bind textOf).bind fun t =>
      (takeStrings ps (release m (.addr p))).map fun (ts, m) => (t :: ts, m)

/-- `cStringVecToStringArray`: src/js/ffi_helpers.rs 391-416; the array is a list of strings. The pointers
are copied out of the allocation of the vector, which is dropped at the end; without capacity, a vector has
no allocation. -/
def cStringVecToStringArray (arg : Js) (m : Mem) : Res (List Text × Mem) :=
  (fromJs E b id vecOfStrings arg).bind fun
    | .struct [.ptr (.addr p), .int len, .int cap] =>
        if p = 0 then .panic
        else if cap = 0 then if len = 0 then .ok ([], m) else .panic
        else match m p with
        | some (.ptrs ps) =>
            if ps.length = len.toNat then (takeStrings ps m).map fun (ts, m) => (ts, release m (.addr p)) else .panic
        | _ => .panic
    | _ => .panic
end

end Verif.Js
