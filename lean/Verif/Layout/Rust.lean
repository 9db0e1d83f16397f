/-
The Rust types that safer_ffi lets cross the FFI boundary, with the size,
alignment and field offsets that the Rust language gives them.

This file is about the language, not about the crate.  Sources: The Rust
Reference, "Type layout" (primitive layouts, `repr(C)`, `repr(transparent)`,
`repr(C, u8)` enums with fields) and the platform's data model.  Both the model
of the crate (`Model.lean`) and the specification (`Spec.lean`) use it.
-/
namespace Verif.Layout

/-- The integer types with a `CType` impl (/repo/src/layout/impls.rs l.21-83),
plus `c_int`, the repr of a bare `repr(C)` enum (an `i32` on every supported
platform). -/
inductive IntTy
  | u8 | u16 | u32 | u64 | usize | i8 | i16 | i32 | i64 | isize
  deriving DecidableEq, Repr

/-- /repo/src/layout/impls.rs l.15-21. -/
inductive FloatTy
  | f32 | f64
  deriving DecidableEq, Repr

/-- The facts about the platform that layouts depend on. (language) -/
structure Target where
  ptrSize : Nat
  bigEndian : Bool
  intAlign : IntTy → Nat
  floatAlign : FloatTy → Nat
  ptrAlign : Nat
  ptrSize_pos : 0 < ptrSize
  intAlign_pos : ∀ k, 0 < intAlign k
  u8_align : intAlign .u8 = 1
  floatAlign_pos : ∀ k, 0 < floatAlign k
  ptrAlign_pos : 0 < ptrAlign

/-- (language) See the head of the file. -/
def IntTy.size (tg : Target) : IntTy → Nat
  | .u8 | .i8 => 1
  | .u16 | .i16 => 2
  | .u32 | .i32 => 4
  | .u64 | .i64 => 8
  | .usize | .isize => tg.ptrSize

/-- (language) See the head of the file. -/
def IntTy.signed : IntTy → Bool
  | .u8 | .u16 | .u32 | .u64 | .usize => false
  | .i8 | .i16 | .i32 | .i64 | .isize => true

/-- (language) See the head of the file. -/
def FloatTy.size : FloatTy → Nat
  | .f32 => 4
  | .f64 => 8

/-- x86_64: 64-bit little endian, naturally aligned. -/
def x86_64 : Target where
  ptrSize := 8
  bigEndian := false
  intAlign k := match k with
    | .u8 | .i8 => 1
    | .u16 | .i16 => 2
    | .u32 | .i32 => 4
    | _ => 8
  floatAlign k := match k with
    | .f32 => 4
    | .f64 => 8
  ptrAlign := 8
  ptrSize_pos := by decide
  intAlign_pos := by intro k; cases k <;> decide
  u8_align := rfl
  floatAlign_pos := by intro k; cases k <;> decide
  ptrAlign_pos := by decide

/-- A 32-bit big endian platform on which 8-byte integers are 4-aligned. -/
def be32 : Target where
  ptrSize := 4
  bigEndian := true
  intAlign k := match k with
    | .u8 | .i8 => 1
    | .u16 | .i16 => 2
    | _ => 4
  floatAlign _ := 4
  ptrAlign := 4
  ptrSize_pos := by decide
  intAlign_pos := by intro k; cases k <;> decide
  u8_align := rfl
  floatAlign_pos := by intro k; cases k <;> decide
  ptrAlign_pos := by decide

/-- The pointer-like types that cannot be null. /repo/src/layout/impls.rs l.969-1010, /repo/src/ptr.rs. -/
inductive RefKind
  | ref | refMut | nonNull | nonNullRef | nonNullMut | nonNullOwned
  deriving DecidableEq, Repr

/-- `&T` and `&mut T`, the kinds for which the language itself demands an aligned address. (language) -/
def RefKind.isReference : RefKind → Bool
  | .ref | .refMut => true
  | _ => false

/-- Rust types implementing `ReprC`. The impls cited at `clayout` (Model.lean). -/
inductive Ty
  /-- integers, also `char_p`'s `c_char` -/
  | int (k : IntTy)
  | float (k : FloatTy)
  | bool
  /-- field-less enum: `repr` and, per variant, the explicit discriminant -/
  | enum (repr : IntTy) (variants : List (Option Int))
  /-- `*const T`, `*mut T` -/
  | rawPtr
  /-- `&T`, `&mut T`, `NonNull<T>`, `NonNullRef<T>`, `NonNullMut<T>`, `NonNullOwned<T>` -/
  | ref (k : RefKind) (t : Ty)
  /-- `Out<'_, T>` -/
  | out (t : Ty)
  /-- `extern "C" fn (…) -> …` -/
  | fnPtr
  /-- `[T; n]` -/
  | array (t : Ty) (n : Nat)
  /-- `repr(C)` struct or tuple; `niche` for the slice and `Vec` structs of the
  crate, which declare that a null first field means `None` -/
  | struct (niche : Bool) (fields : List Ty)
  /-- `repr(transparent)` struct -/
  | transparent (fields : List Ty)
  /-- `Option<T>` with `T : HasNiche` -/
  | option (t : Ty)
  /-- `TaggedOption<T>` -/
  | tagged (t : Ty)
  /-- `()` and `PhantomData<_>` -/
  | unit
  /-- a type with an opaque C layout: `String`, `Vec<T>`, `repr(opaque)`… -/
  | opaque (size align : Nat)

/-- Least multiple of `a` that is at least `n`. (language) -/
def roundUp (n a : Nat) : Nat := (n + a - 1) / a * a

/-- Offsets of the fields of a `repr(C)` struct, in declaration order, given their (size, align), when the
next free byte is at `pos`. (language) -/
def offsetsFrom (pos : Nat) : List (Nat × Nat) → List Nat
  | [] => []
  | (s, a) :: fs => roundUp pos a :: offsetsFrom (roundUp pos a + s) fs

/-- First byte past the last field. (language) -/
def endFrom (pos : Nat) : List (Nat × Nat) → Nat
  | [] => pos
  | (s, a) :: fs => endFrom (roundUp pos a + s) fs

/-- (language) The alignment of a `repr(C)` struct. -/
def maxAlign : List (Nat × Nat) → Nat
  | [] => 1
  | (_, a) :: fs => max a (maxAlign fs)

/-- (language) The size of a union, or of the only field with a size. -/
def maxSize : List (Nat × Nat) → Nat
  | [] => 0
  | (s, _) :: fs => max s (maxSize fs)

/-- (size, align) of a `repr(C)` struct. (language) -/
def structLay (fs : List (Nat × Nat)) : Nat × Nat :=
  (roundUp (endFrom 0 fs) (maxAlign fs), maxAlign fs)

mutual
/-- (size, align) of a Rust type. A `repr(transparent)` struct has at most one field that is not a
zero-sized type of alignment 1, so the maximum below is that field's. (language) -/
def lay (tg : Target) : Ty → Nat × Nat
  | .int k => (k.size tg, tg.intAlign k)
  | .float k => (k.size, tg.floatAlign k)
  | .bool => (1, 1)
  | .enum k _ => (k.size tg, tg.intAlign k)
  | .rawPtr | .ref _ _ | .out _ | .fnPtr => (tg.ptrSize, tg.ptrAlign)
  | .array t n => (n * (lay tg t).1, (lay tg t).2)
  | .struct _ fs => structLay (lays tg fs)
  | .transparent fs => (maxSize (lays tg fs), maxAlign (lays tg fs))
  | .option t => lay tg t
  | .tagged t => structLay [(1, 1), lay tg t]
  | .unit => (0, 1)
  | .opaque s a => (s, a)

/-- The (size, align) of each. -/
def lays (tg : Target) : List Ty → List (Nat × Nat)
  | [] => []
  | t :: ts => lay tg t :: lays tg ts
end

/-- `core::mem::size_of::<T>()`. (core) -/
def sizeOf' (tg : Target) (t : Ty) : Nat := (lay tg t).1

/-- `core::mem::align_of::<T>()`. (core) -/
def alignOf' (tg : Target) (t : Ty) : Nat := (lay tg t).2

/-- The `n` bytes at offset `o`. (language) -/
def slice (bs : List UInt8) (o n : Nat) : List UInt8 := (bs.drop o).take n

/-- Little endian number. (language) -/
def leNat : List UInt8 → Nat
  | [] => 0
  | b :: bs => b.toNat + 256 * leNat bs

/-- The unsigned number stored in these bytes. (language) -/
def natOf (tg : Target) (bs : List UInt8) : Nat :=
  leNat (if tg.bigEndian then bs.reverse else bs)

end Verif.Layout
