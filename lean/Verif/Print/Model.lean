import Verif.Print.Std
import Verif.CharP.Shared
import Verif.Owned.Slice
import Verif.Owned.Model
import Verif.Bytes.Model

/-!
# Model of the `Debug` and `Display` implementations

The memory, and the functions that read it, are those of the models of C strings (`Verif.CharP`),
containers and slices (`Verif.Owned`) and `Bytes` (`Verif.Bytes`).

Not modelled: `Debug` of closures (/repo/src/closure) and of `char_p_raw`, which print the addresses of
their fields; derived `Debug` of tuples and of the field-less enums; the text of `InvalidNulTerminator`'s
`Display`.
-/
namespace Verif.Print

/-- The text that bytes encode: what `str::from_utf8_unchecked` takes them for (std). -/
def chars (b : List UInt8) : Text := (((ByteArray.mk b.toArray).utf8Decode?).map Array.toList).getD []

/-! ### C strings -/

/-- `Debug for char_p_ref`: `fmt::Debug::fmt(self.to_str(), fmt)`, /repo/src/char_p.rs:50-58. `m`: the memory
from the pointer on. -/
def charRefDebug (P : Prims) (o : Opts) (m : List UInt8) : Except CharP.Fault Text := do
  let s ← CharP.toStr m
  .ok (strDebug P o (chars s))

/-- `Display for char_p_ref`, /repo/src/char_p.rs:60-68. -/
def charRefDisplay (o : Opts) (m : List UInt8) : Except CharP.Fault Text := do
  let s ← CharP.toStr m
  .ok (strDisplay o (chars s))

/-- `Debug for char_p_boxed`: of `self.as_ref()`, /repo/src/char_p.rs:380-388. -/
def charBoxDebug (P : Prims) (o : Opts) (h : CharP.Heap) (p : CharP.Ptr) : Except CharP.Fault Text := do
  charRefDebug P o (← p.mem h)

/-- `Display for char_p_boxed`, /repo/src/char_p.rs:389-397. -/
def charBoxDisplay (o : Opts) (h : CharP.Heap) (p : CharP.Ptr) : Except CharP.Fault Text := do
  charRefDisplay o (← p.mem h)

/-- `Debug` of `NonNullRef`, `NonNullMut`, `NonNullOwned`, /repo/src/ptr.rs:86-96. -/
def nonNullDebug (P : Prims) (name : String) (o : Opts) (a : Nat) : Text := debugTuple o name [P.ptr o a]

/-- `Display for SharedCStr`, /repo/src/shared_cstr.rs:150-159. -/
def sharedDisplay (o : Opts) (h : CharP.Shared.Heap) (i : Nat) : Except CharP.Fault Text := do
  let s ← CharP.Shared.derefS h i
  .ok (strDisplay o (chars s))

/-- `Debug for SharedCStr`: derived, of the pointer, /repo/src/shared_cstr.rs:13-19. `place`: the address of
each allocation. -/
def sharedDebug (P : Prims) (place : Nat → Nat) (o : Opts) (i : Nat) : Text :=
  debugTuple o "SharedCStr" [P.ptr o (place i)]

/-- `Debug for InvalidNulTerminator<String>`: derived, /repo/src/char_p.rs:90-94. -/
def invalidNulDebug (P : Prims) (o : Opts) (s : Text) : Text := debugTuple o "InvalidNulTerminator" [strDebug P o s]

/-- The message of the panic of `char_p::new` on the text `s`, /repo/src/char_p.rs:436-448. -/
def newPanic (P : Prims) (s : Text) : Text :=
  "Error, the string `".toList ++ invalidNulDebug P {} s ++
    "` contains an inner nul byte and can thus not be converted to a C string without truncating it.".toList

/-! ### Containers -/

section
variable {α : Type} [Inhabited α] (E : Owned.Elem α)

/-- How elements are printed, which text a sequence of them encodes (for `u8`), and where the
allocations are (`none`: the dangling pointer). Not in the code: the `Debug` of `T`. -/
structure Elems (α : Type) where
  prims : Prims
  elem : Fmt α
  text : List α → Text
  place : Option Nat → Nat

/-- `Debug for slice_boxed`: derived, of the pointer and the length, /repo/src/slice.rs:118-130. -/
def sliceBoxedDebug (P : Prims) (o : Opts) (a len : Nat) : Text :=
  debugStruct o "slice_boxed" [("ptr", nonNullDebug P "NonNullOwned" o a), ("len", P.num o len)]

/-- `Debug` of an owning container. For those of the standard library: what it prints (std). -/
def valDebug (S : Elems α) (o : Opts) (h : Owned.Heap α) : Owned.Val → Except Owned.Fault Text
  | .rvec v => do .ok (sliceDebug S.elem o (← Owned.readN E h v.ptr v.len))
  -- `Debug for Vec`, /repo/src/vec.rs:186-194
  | .cvec v => do .ok (sliceDebug S.elem o (← v.deref E h))
  | .rstr v => do .ok (strDebug S.prims o (S.text (← Owned.readN E h v.ptr v.len)))
  -- `Debug for String`, /repo/src/string/_mod.rs:67-75
  | .cstr v => do .ok (strDebug S.prims o (S.text (← v.deref E h)))
  | .rbs b => do .ok (sliceDebug S.elem o (← Owned.readN E h b.ptr b.len))
  -- /repo/src/slice.rs:118
  | .cbs b => .ok (sliceBoxedDebug S.prims o (S.place b.ptr) b.len)
  | .rbstr b => do .ok (strDebug S.prims o (S.text (← Owned.readN E h b.ptr b.len)))
  -- `Debug for str_boxed`, /repo/src/string/slice.rs:86-94
  | .cbstr b => do .ok (strDebug S.prims o (S.text (← b.deref E h)))
  | .rb b => do .ok ((← Owned.readN E h b.ptr 1).flatMap (S.elem o))
  -- `Debug for Box_`: `T::fmt(self, fmt)`, /repo/src/boxed.rs:117-125
  | .cb b => do .ok ((← b.deref E h).flatMap (S.elem o))

/-- `Display for String`, /repo/src/string/_mod.rs:83-91; `none`: no such implementation. For `String` and
`Box<str>` of the standard library: what they print (std). -/
def valDisplay (S : Elems α) (o : Opts) (h : Owned.Heap α) : Owned.Val → Option (Except Owned.Fault Text)
  | .rstr v => some do .ok (strDisplay o (S.text (← Owned.readN E h v.ptr v.len)))
  | .cstr v => some do .ok (strDisplay o (S.text (← v.deref E h)))
  | .rbstr b => some do .ok (strDisplay o (S.text (← Owned.readN E h b.ptr b.len)))
  | _ => none
end

/-! ### Slices -/

section
variable {α : Type}
open Owned.Slice

/-- `Debug` of anything that denotes a run of elements, at `m`. -/
def viewDebug (P : Prims) (f : Fmt α) (o : Opts) (sz : Nat) (m : Mem α) : View → Text
  | .rref s => sliceDebug f o (elems sz m s)
  | .rmut s => sliceDebug f o (elems sz m s)
  -- `Debug for slice_ref`: of `self` as a `&[T]`, /repo/src/slice.rs:370-379
  | .cref s => sliceDebug f o (elems sz m s.asSlice)
  -- `Debug for slice_mut`, /repo/src/slice.rs:540-549
  | .cmut s => sliceDebug f o (elems sz m s.deref)
  -- derived, /repo/src/slice.rs:46-57
  | .raw s => debugStruct o "slice_raw" [("ptr", P.ptr o s.ptr), ("len", P.num o s.len)]
  | .boxed s => sliceBoxedDebug P o s.ptr s.len
  -- `&self[..]`, /repo/src/vec.rs:192
  | .vec v => sliceDebug f o (elems sz m ⟨v.ptr, v.len⟩)

/-- `Debug for str_ref`, /repo/src/string/slice.rs:184-192. -/
def strRefDebug (P : Prims) (o : Opts) (m : Mem UInt8) (s : SliceRef) : Text :=
  strDebug P o (chars (elems 1 m s.asSlice))
end

/-! ### Bytes, options, integers -/

/-- `<u8 as Debug>::fmt` (std). -/
def byteDebug (P : Prims) (o : Opts) (b : UInt8) : Text := P.num o b.toNat

/-- `Debug for Bytes`, /repo/src/bytes.rs:412-424. -/
def bytesDebug (P : Prims) (o : Opts) (e : Bytes.Env) (h : List Bytes.Alloc) (r : Bytes.Raw) :
    Except Bytes.Fault Text := do
  if o.alternate then
    let d ← Bytes.asSlice e.toTarget h r
    let u ← Bytes.upgradeWillAllocate e r
    let c ← Bytes.cloneWillAllocate e r
    .ok (debugStruct o "Bytes"
      [("data", sliceDebug (byteDebug P) o d), ("owned", boolDebug o (!u)), ("shared", boolDebug o (!c))])
  else
    let d ← Bytes.asSlice e.toTarget h r
    .ok (sliceDebug (byteDebug P) o d)

/-- `TaggedOption`, /repo/src/option.rs:20-23. -/
inductive Tagged (α : Type)
  | none
  | some (x : α)
deriving DecidableEq, Repr

/-- `Debug for TaggedOption`: derived, /repo/src/option.rs:19. -/
def taggedDebug {α : Type} (f : Fmt α) (o : Opts) : Tagged α → Text
  | .none => "None".toList
  | .some x => debugTuple o "Some" [f o x]

/-- `From<TaggedOption> for Option`, /repo/src/option.rs:53-60. -/
def Tagged.toRust {α : Type} : Tagged α → Option α
  | .none => Option.none
  | .some x => Option.some x

end Verif.Print
