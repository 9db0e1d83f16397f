import Verif.Markers.Model
/-!
# Specification: what safe code can do with a value

`Gives`: what safe code reaches from a value that it owns, or borrows exclusively or shared: one rule for each function of the API
(and of the standard library, for its pointers). A type may be `Send` if all that a thread reaches from an owned value may be used there;
`Sync`, if all that it reaches from a shared one may.

`std`: the type of the standard library that a type of safer_ffi is the counterpart of.

`Sub`: the subtypes of Rust's own types, and of structs by their fields (variance).
-/
namespace Verif.Markers

/-- How a value is held: owned, by `&mut`, by `&`. -/
inductive Mode
  | own | excl | share
  deriving DecidableEq, Repr

/-- What a value of a type that hides another one is used through. -/
def hidden : Ty → Option Ty
  | .bytes _ h | .arcFn h _ _ | .boxFn h _ _ | .refFn _ h _ _ | .virt _ _ _ h => some h
  | _ => none

/-- `Gives m t n u`: from a `T` held in mode `m`, safe code obtains a `U` in mode `n`. (Destructors are uses of what is owned.) -/
inductive Gives (E : Env) (L : Lifetimes) (supers : Bool) : Mode → Ty → Mode → Ty → Prop
  -- Any type: a value can be borrowed, and `mem::replace` takes what is borrowed exclusively. A shared borrow (also as a `c_slice::Ref`)
  -- that a thread makes of what it holds exclusively is no rule: it gives less. The result of `Clone` is considered only where it
  -- shares something with the original.
  | borrowMut {t} : Gives E L supers .own t .excl t
  | replace {t} : Gives E L supers .excl t .own t
  -- Types of Rust.
  | item {m t} : Gives E L supers m (.seq t) m t
  | field {m ts t} : t ∈ ts → Gives E L supers m (.tuple ts) m t
  | box {m t} : Gives E L supers m (.rustBox t) m t
  | vec {m t} : Gives E L supers m (.rustVec t) m t
  | refCopy {l t} : Gives E L supers .share (.ref l t) .own (.ref l t)
  | refDeref {m l t} : Gives E L supers m (.ref l t) .share t
  | mutDeref {l t} : Gives E L supers .own (.mut l t) .excl t
  | mutShared {l t} : Gives E L supers .share (.mut l t) .share t
  | rcClone {t} : Gives E L supers .share (.rc t) .own (.rc t)
  | rcDeref {m t} : Gives E L supers m (.rc t) .share t
  | rcDrop {t} : Gives E L supers .own (.rc t) .own t
  | arcClone {t} : Gives E L supers .share (.arc t) .own (.arc t)
  | arcDeref {m t} : Gives E L supers m (.arc t) .share t
  | arcDrop {t} : Gives E L supers .own (.arc t) .own t
  -- src/boxed.rs 42-50 (into), 52-64 (drop), 66-78 (deref), 80-92 (deref_mut); 106-115: a clone calls that of the content
  | cBoxInto {t} : Gives E L supers .own (.cBox t) .own (.rustBox t)
  | cBoxDerefMut {t} : Gives E L supers .excl (.cBox t) .excl t
  | cBoxDeref {t} : Gives E L supers .share (.cBox t) .share t
  -- src/vec.rs 71-87 (into), 89-101 (drop), 23-34 (as_ref), 36-46 (as_mut), 103-117, 119-134 (deref), 158-173 (with_rust_mut)
  | cVecInto {t} : Gives E L supers .own (.cVec t) .own (.rustVec t)
  | cVecAsRef {l t} : Gives E L supers .share (.cVec t) .own (.sliceRef l t)
  | cVecAsMut {l t} : Gives E L supers .excl (.cVec t) .own (.sliceMut l t)
  | cVecDeref {t} : Gives E L supers .share (.cVec t) .share (.seq t)
  | cVecDerefMut {t} : Gives E L supers .excl (.cVec t) .excl (.seq t)
  | cVecWith {t} : Gives E L supers .excl (.cVec t) .excl (.rustVec t)
  -- src/slice.rs 184-199 (into), 201-217 (drop), 133-140, 142-148 (as_ref, as_mut), 150-156, 158-164 (as_slice), 219-246 (deref)
  | sliceBoxedInto {t} : Gives E L supers .own (.sliceBoxed t) .own (.rustBox (.seq t))
  | sliceBoxedAsRef {l t} : Gives E L supers .share (.sliceBoxed t) .own (.sliceRef l t)
  | sliceBoxedAsMut {l t} : Gives E L supers .excl (.sliceBoxed t) .own (.sliceMut l t)
  | sliceBoxedDeref {t} : Gives E L supers .share (.sliceBoxed t) .share (.seq t)
  | sliceBoxedDerefMut {t} : Gives E L supers .excl (.sliceBoxed t) .excl (.seq t)
  -- src/slice.rs 317-326 (as_slice), 328-341 (Copy), 343-354 (deref)
  | sliceRefCopy {l t} : Gives E L supers .share (.sliceRef l t) .own (.sliceRef l t)
  | sliceRefAsSlice {l t} : Gives E L supers .own (.sliceRef l t) .own (.ref l (.seq t))
  -- src/slice.rs 457-481 (deref), 484-498, 500-514 (as_ref, as_mut), 516-525 (as_slice)
  | sliceMutAsRef {l k t} : Gives E L supers .share (.sliceMut l t) .own (.sliceRef k t)
  | sliceMutAsMut {l k t} : Gives E L supers .excl (.sliceMut l t) .own (.sliceMut k t)
  | sliceMutAsSlice {l t} : Gives E L supers .own (.sliceMut l t) .own (.mut l (.seq t))
  -- src/option.rs 70-75 (as_ref), 77-82 (as_mut), 84-112 (into_rust, take and others); its variants are public
  | taggedInto {m t} : Gives E L supers m (.tagged t) m t
  -- src/bytes.rs 699-714 (drop: the owner is released), src/closure/arc.rs 169-183, src/closure/boxed.rs 137-150, src/dyn_traits/_mod.rs
  -- 157-168: the destructor is that of what is hidden. Only values made by a constructor exist.
  | hiddenDrop {t h} : New E L supers t → hidden t = some h → Gives E L supers .own t .own h
  -- src/bytes.rs 308-320 (as_slice), src/closure/arc.rs 217-227 (call), and the `&self` methods of virtual pointers
  | bytesAsSlice {l h} : New E L supers (.bytes l h) → Gives E L supers .share (.bytes l h) .share h
  | arcFnCall {h ret args} : New E L supers (.arcFn h ret args) → Gives E L supers .share (.arcFn h ret args) .share h
  | virtCall {l s y h} : New E L supers (.virt l s y h) → Gives E L supers .share (.virt l s y h) .share h
  -- src/closure/boxed.rs 161-171, src/closure/borrowed.rs 119-129 (call), and the `&mut self` methods of virtual pointers
  | boxFnCall {h ret args} : New E L supers (.boxFn h ret args) → Gives E L supers .excl (.boxFn h ret args) .excl h
  | refFnCall {l h ret args} : New E L supers (.refFn l h ret args) → Gives E L supers .excl (.refFn l h ret args) .excl h
  | virtCallMut {l s y h} : New E L supers (.virt l s y h) → Gives E L supers .excl (.virt l s y h) .excl h
  -- Clones that share what they hide: src/bytes.rs 693-697, src/closure/arc.rs 185-206, src/dyn_traits/_mod.rs 102-126,
  -- src/shared_cstr.rs 103-119
  | bytesClone {l h} : New E L supers (.bytes l h) → Gives E L supers .share (.bytes l h) .own (.bytes l h)
  | arcFnClone {h ret args} : New E L supers (.arcFn h ret args) → Gives E L supers .share (.arcFn h ret args) .own (.arcFn h ret args)
  | virtClone {l s y h} : New E L supers (.virt l s y h) → Gives E L supers .share (.virt l s y h) .own (.virt l s y h)
  -- The strings hold bytes only, and raw pointers (`raw`, `sliceRaw`, `charRaw`, and the pointers of src/ptr.rs) give nothing to safe code.

/-- What safe code reaches, in any number of steps. -/
inductive Reaches (E : Env) (L : Lifetimes) (supers : Bool) : Mode → Ty → Mode → Ty → Prop
  | refl {m t} : Reaches E L supers m t m t
  | step {m t n u k v} : Reaches E L supers m t n u → Gives E L supers n u k v → Reaches E L supers m t k v

/-- What the mode asks for: another thread may own, or exclusively borrow, only what is `Send`, and share only what is `Sync`. -/
def Mode.needs : Mode → Marker
  | .own | .excl => .send
  | .share => .sync

/-- The counterparts in the standard library: the type whose contents and whose kind of ownership are the same. -/
def std : Ty → Option Ty
  | .cBox t => some (.rustBox t)
  | .cVec t => some (.rustVec t)
  | .sliceBoxed t => some (.rustBox (.seq t))
  | .sliceRef l t => some (.ref l (.seq t))
  | .sliceMut l t => some (.mut l (.seq t))
  | .string => some (.rustVec .prim)
  | .strBoxed => some (.rustBox (.seq .prim))
  | .strRef l => some (.ref l (.seq .prim))
  | .charRef l => some (.ref l (.seq .prim))
  | .charBoxed => some (.rustBox (.seq .prim))
  | .sharedCStr => some (.arc (.seq .prim))
  -- `Option<T>`
  | .tagged t => some (.tuple [t])
  | _ => none

/-! ### Subtypes -/

/-- The type without its parameters: which struct it is (and, of those that hide something, which value). -/
def shell : Ty → Ty
  | .nonNullRef _ => .nonNullRef .prim
  | .phantomInvariant _ => .phantomInvariant .prim
  | .nonNullMut _ => .nonNullMut .prim
  | .nonNullOwned _ => .nonNullOwned .prim
  | .cBox _ => .cBox .prim
  | .cVec _ => .cVec .prim
  | .sliceRaw _ => .sliceRaw .prim
  | .sliceBoxed _ => .sliceBoxed .prim
  | .sliceRef _ _ => .sliceRef 0 .prim
  | .sliceMut _ _ => .sliceMut 0 .prim
  | .strRef _ => .strRef 0
  | .charRef _ => .charRef 0
  | .tagged _ => .tagged .prim
  | .bytes _ h => .bytes 0 h
  | .arcFn h _ _ => .arcFn h .prim []
  | .boxFn h _ _ => .boxFn h .prim []
  | .refFn _ h _ _ => .refFn 0 h .prim []
  | t => t

mutual
/-- `Sub t u`: a `T` can be used as a `U` (Rust's rules; `&mut T`: the contents must be subtypes of each other). Function pointers are
contravariant in their parameters. Structs are compared by their fields. A `VirtualPtr` is of one type only: src/proc_macro/derives/
dyn_trait/_mod.rs 136-153, 183-189 (`_invariant`), and `dyn` types have no variance. -/
inductive Sub (L : Lifetimes) : Ty → Ty → Prop
  | prim : Sub L .prim .prim
  | user {i} : Sub L (.user i) (.user i)
  | seq {t u} : Sub L t u → Sub L (.seq t) (.seq u)
  | ref {k l t u} : L.out k l → Sub L t u → Sub L (.ref k t) (.ref l u)
  | mut {k l t u} : L.out k l → Sub L t u → Sub L u t → Sub L (.mut k t) (.mut l u)
  | raw {t u} : Sub L t u → Sub L (.raw t) (.raw u)
  | phantom {t u} : Sub L t u → Sub L (.phantom t) (.phantom u)
  | fnPtr {r s as bs} : Sub L r s → Subs L bs as → Sub L (.fnPtr r as) (.fnPtr s bs)
  | rustBox {t u} : Sub L t u → Sub L (.rustBox t) (.rustBox u)
  | rustVec {t u} : Sub L t u → Sub L (.rustVec t) (.rustVec u)
  | rc {t u} : Sub L t u → Sub L (.rc t) (.rc u)
  | arc {t u} : Sub L t u → Sub L (.arc t) (.arc u)
  | tuple {ts us} : Subs L ts us → Sub L (.tuple ts) (.tuple us)
  | struct {t u fs gs} : shell t = shell u → fields t = some fs → fields u = some gs → Subs L fs gs → Sub L t u
  | virt {l s y h} : Sub L (.virt l s y h) (.virt l s y h)
inductive Subs (L : Lifetimes) : List Ty → List Ty → Prop
  | nil : Subs L [] []
  | cons {t u ts us} : Sub L t u → Subs L ts us → Subs L (t :: ts) (u :: us)
end

end Verif.Markers
