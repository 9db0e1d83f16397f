import Verif.Stabby.Types
import Verif.Layout.Model
/-
Model of the `ReprC` and `HasNiche` impls for the types of `stabby`,
/repo/src/stabby.  As in `Verif.Layout.Model`, a value is its byte image and a
panic is an explicit error.
-/
namespace Verif.Stabby
open Verif.Layout

/-- `<T as ReprC>::CLayout`.
 - `Box`: `*const CVoid`, /repo/src/stabby/boxed_impl.rs l.15; `Arc`, `Weak`: `CLayoutOf<NonNull<T>>`,
   /repo/src/stabby/sync_impl.rs l.14, l.53: pointers;
 - slices: `CLayoutOf<AllocSlice<T>>`, two pointers, /repo/src/stabby/boxed_impl.rs l.33, l.52-56,
   /repo/src/stabby/sync_impl.rs l.32, l.71; strings: that of slices of `u8`, /repo/src/stabby/boxed_impl.rs l.44,
   /repo/src/stabby/sync_impl.rs l.43, l.80;
 - `Dyn`: `CLayoutOf<StabbyDyn<Ptr, VTable>>`, /repo/src/stabby/fatptr_impl.rs l.10, l.26-29; `DynRef`: with `&()`
   for `Ptr`, /repo/src/stabby/fatptr_impl.rs l.17;
 - `VtDrop`: /repo/src/stabby/fatptr_impl.rs l.34-38; `VTable`: /repo/src/stabby/fatptr_impl.rs l.47-59;
 - wrappers: that of what they wrap, /repo/src/stabby/fatptr_impl.rs l.66, l.73, l.80, l.87;
 - `Option<T>`: /repo/src/layout/niche.rs l.21. -/
def sclayout : STy → CTy
  | .of t => clayout t
  | .ptr _ _ => .ptr
  | .slice _ _ | .str _ => .struct [.ptr, .ptr]
  | .dyn data _ => .struct [sclayout data, .ptr]
  | .dynRef _ => .struct [.ptr, .ptr]
  | .vtDrop => .struct [.optFn]
  | .vtable head tail => .struct [sclayout tail, sclayout head]
  | .alias _ t => sclayout t
  | .option t => sclayout t

/-- `ptr.align_offset(align)` for a pointer with address `a` to items of `size` bytes: how many
items to skip to get an aligned address, `none` for `usize::MAX`, when there is no such number. (core) -/
def alignOffset (a size align : Nat) : Option Nat :=
  (List.range align).find? fun k => (a + k * size) % align == 0

/-- What the pointers of `T`'s `CLayout` point to, `CVoid` for `Box` (zero-sized, /repo/src/tuple.rs l.9-18). -/
def pointee (tg : Target) : PtrKind → STy → Nat
  | .box, _ => 0
  | .arc, t | .weak, t => (clay tg (sclayout t)).1

/-- `is_valid` of `Box`, `Arc` and `Weak`, /repo/src/stabby/boxed_impl.rs l.16-18, l.24-26,
/repo/src/stabby/sync_impl.rs l.15-17, l.23-25, l.54-56, l.62-64. -/
def ptrValid (tg : Target) (k : PtrKind) (t : STy) (bs : List UInt8) : Bool :=
  natOf tg bs != 0 && alignOffset (natOf tg bs) (pointee tg k t) (salign tg t) == some 0

/-- `is_valid` of the slices, for items of `size` bytes in C, of alignment `align` in Rust.
/repo/src/stabby/boxed_impl.rs l.34-38, /repo/src/stabby/sync_impl.rs l.33-37, l.72-74. -/
def sliceValid (tg : Target) (size align : Nat) (bs : List UInt8) : Bool :=
  let start := natOf tg (slice bs 0 tg.ptrSize)
  let fin := natOf tg (slice bs (roundUp tg.ptrSize tg.ptrAlign) tg.ptrSize)
  !(start == 0 || fin == 0) && alignOffset start size align == some 0 &&
    alignOffset fin size align == some 0

/-- The `is_valid` that `#[derive_ReprC]` gives a struct of two fields: each field that is not
zero-sized is checked, the second also after a failure of the first.
/repo/src/proc_macro/derives/repr_c/struct_.rs l.168-199. -/
def pairValid (tg : Target) (a b : Nat × Nat) (ca cb : CTy) (fa fb : List UInt8 → Except Panic Bool)
    (bs : List UInt8) : Except Panic Bool := do
  let x ← if a.1 != 0 then fa (slice bs 0 (clay tg ca).1) else pure true
  let y ← if b.1 != 0 then fb (slice bs (roundUp (clay tg ca).1 (clay tg cb).2) (clay tg cb).1) else pure true
  return x && y

/-- `is_valid` of `&'static VTable` (`align` is `VTable`'s) and of `&'a ()`, /repo/src/layout/impls.rs l.969-1010. -/
def refValid (tg : Target) (align : Nat) (bs : List UInt8) : Except Panic Bool :=
  .ok (natOf tg bs != 0 && natOf tg bs % align == 0)

/-- `<T as HasNiche>::is_niche`: null for the pointers, /repo/src/stabby/boxed_impl.rs l.24-26,
/repo/src/stabby/sync_impl.rs l.23-25, l.62-64. The other types of `stabby` have no impl and cannot occur under
`Option`; they give `false`. -/
def sIsNiche (tg : Target) : STy → List UInt8 → Except Panic Bool
  | .of t, bs => isNiche tg t bs
  | .ptr _ _, bs => .ok (natOf tg bs == 0)
  | _, _ => .ok false

/-- `<T as ReprC>::is_valid`, on the image of a `CLayout`.
 - pointers, slices: see `ptrValid`, `sliceValid`; strings: as slices of `u8`, /repo/src/stabby/boxed_impl.rs l.45-47,
   /repo/src/stabby/sync_impl.rs l.44-46, l.81-83;
 - `Dyn`, `DynRef`: /repo/src/stabby/fatptr_impl.rs l.11-13, l.18-20; `VtDrop`: /repo/src/stabby/fatptr_impl.rs l.39-41;
   `VTable`: /repo/src/stabby/fatptr_impl.rs l.60-62;
 - wrappers: /repo/src/stabby/fatptr_impl.rs l.67-69, l.74-76, l.81-83, l.88-90;
 - `Option<T>`: /repo/src/layout/niche.rs l.24-28. -/
def sIsValid (tg : Target) : STy → List UInt8 → Except Panic Bool
  | .of t, bs => isValid tg t bs
  | .ptr k t, bs => .ok (ptrValid tg k t bs)
  | .slice _ t, bs => .ok (sliceValid tg (clay tg (sclayout t)).1 (salign tg t) bs)
  | .str _, bs => .ok (sliceValid tg 1 1 bs)
  | .dyn data vt, bs =>
    pairValid tg (slay tg data) (ptrLay tg) (sclayout data) .ptr (sIsValid tg data) (refValid tg (salign tg vt)) bs
  | .dynRef vt, bs =>
    pairValid tg (ptrLay tg) (ptrLay tg) .ptr .ptr (refValid tg 1) (refValid tg (salign tg vt)) bs
  | .vtDrop, bs => fnPtrValid tg (slice bs 0 tg.ptrSize)
  | .vtable head tail, bs =>
    pairValid tg (slay tg tail) (slay tg head) (sclayout tail) (sclayout head) (sIsValid tg tail)
      (sIsValid tg head) bs
  | .alias _ t, bs => sIsValid tg t bs
  | .option t, bs => do
    if ← sIsNiche tg t bs then return true else sIsValid tg t bs

/-- `from_raw`, /repo/src/layout/_mod.rs l.867-883, with the size assertion of
`transmute_unchecked`, /repo/src/utils/_mod.rs l.12-29. -/
def sFromRaw (tg : Target) (t : STy) (bs : List UInt8) : Except Panic (Option (List UInt8)) := do
  if ← sIsValid tg t bs then
    if (clay tg (sclayout t)).1 = ssize tg t then return some bs
    else throw .sizeMismatch
  else return none

/-- `from_raw_unchecked`, /repo/src/layout/_mod.rs l.848-865. -/
def sFromRawUnchecked (tg : Target) (debug : Bool) (t : STy) (bs : List UInt8) :
    Except Panic (List UInt8) := do
  match ← sFromRaw tg t bs with
  | some it => return it
  | none => throw (if debug then .notValid else .ub)

/-- `into_raw`, /repo/src/layout/_mod.rs l.887-898. -/
def sIntoRaw (tg : Target) (t : STy) (bs : List UInt8) : Except Panic (List UInt8) :=
  if ssize tg t = (clay tg (sclayout t)).1 then .ok bs else .error .sizeMismatch

/-! ### `Stabbied<T>` -/

/-- `<Stabbied<T> as ReprC>::is_valid`, given `T::is_invalid`. /repo/src/stabby/_mod.rs l.45-47. -/
def stabbiedValid (isInvalid : List UInt8 → Bool) (bs : List UInt8) : Bool := !isInvalid bs

/-- `<Stabbied<T> as HasNiche>::is_niche`: the default. /repo/src/stabby/_mod.rs l.50-53, /repo/src/layout/niche.rs l.8-14. -/
def stabbiedNiche (isInvalid : List UInt8 → Bool) (bs : List UInt8) : Bool := !stabbiedValid isInvalid bs

/-- `<Option<Stabbied<T>> as ReprC>::is_valid`, /repo/src/layout/niche.rs l.24-28. -/
def stabbiedOptionValid (isInvalid : List UInt8 → Bool) (bs : List UInt8) : Bool :=
  stabbiedNiche isInvalid bs || stabbiedValid isInvalid bs

end Verif.Stabby
