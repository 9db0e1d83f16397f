import Verif.Layout.Rust
/-
The types of `stabby` that safer_ffi lets cross the FFI boundary
(/repo/src/stabby), with the size and alignment they have in Rust.

`stabby` itself is not part of the repository.  What this file and `Spec.lean`
say about the representation of its types is taken from what /repo/src/stabby
declares as their C layout, and is an assumption.
-/
namespace Verif.Stabby
open Verif.Layout

/-- Owning pointers. /repo/src/stabby/boxed_impl.rs l.6, /repo/src/stabby/sync_impl.rs l.5. -/
inductive PtrKind
  | box | arc | weak
  deriving DecidableEq, Repr

/-- Marker wrappers. /repo/src/stabby/fatptr_impl.rs l.65-91. -/
inductive AliasKind
  | vtSend | vtSync | stableIf | stableLike
  deriving DecidableEq, Repr

/-- Types implementing `ReprC`, those of `stabby` included.  Allocators are zero-sized (the impls
demand it: `IStable<Size = USIZE>`) and left out. /repo/src/stabby. -/
inductive STy
  /-- a type that is not one of `stabby`'s -/
  | of (t : Ty)
  /-- `Box<T>`, `Arc<T>`, `Weak<T>` -/
  | ptr (k : PtrKind) (t : STy)
  /-- `BoxedSlice<T>`, `ArcSlice<T>`, `WeakSlice<T>` -/
  | slice (k : PtrKind) (t : STy)
  /-- `BoxedStr`, `ArcStr`, `WeakStr` -/
  | str (k : PtrKind)
  /-- `Dyn<'_, Ptr, VTable>` -/
  | dyn (data vt : STy)
  /-- `DynRef<'_, VTable>` -/
  | dynRef (vt : STy)
  /-- `VtDrop` -/
  | vtDrop
  /-- `VTable<Head, Tail>` -/
  | vtable (head tail : STy)
  /-- `VtSend<T>`, `VtSync<T>`, `StableIf<T, _>`, `StableLike<T, _>` -/
  | alias (k : AliasKind) (t : STy)
  /-- `Option<T>` with `T : HasNiche` -/
  | option (t : STy)

/-- (size, align) of a pointer. (language) -/
def ptrLay (tg : Target) : Nat × Nat := (tg.ptrSize, tg.ptrAlign)

/-- (size, align) in Rust. The tail of a vtable comes first. (language, and the head of this file) -/
def slay (tg : Target) : STy → Nat × Nat
  | .of t => lay tg t
  | .ptr _ _ => ptrLay tg
  | .slice _ _ | .str _ => structLay [ptrLay tg, ptrLay tg]
  | .dyn data _ => structLay [slay tg data, ptrLay tg]
  | .dynRef _ => structLay [ptrLay tg, ptrLay tg]
  | .vtDrop => structLay [ptrLay tg]
  | .vtable head tail => structLay [slay tg tail, slay tg head]
  | .alias _ t => slay tg t
  | .option t => slay tg t

/-- `core::mem::size_of::<T>()`. (core) -/
def ssize (tg : Target) (t : STy) : Nat := (slay tg t).1

/-- `core::mem::align_of::<T>()`. (core) -/
def salign (tg : Target) (t : STy) : Nat := (slay tg t).2

end Verif.Stabby
