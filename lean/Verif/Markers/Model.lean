import Verif.Dyn.Model
/-!
# Model: `Send`, `Sync` and subtyping of safer_ffi's types

The declarations of the types of `src/{boxed,vec,slice,string,char_p,shared_cstr,bytes,option,ptr}.rs`, `src/closure` and
`src/dyn_traits`, with their `unsafe impl`s of `Send` and `Sync`, and the bounds of their constructors.

Not modelled: the types of `src/js` (C60, C68, C81 are about the threads of JavaScript callbacks), and the types of stabby.
-/
namespace Verif.Markers

/-- Types. Lifetimes are numbers, `'static` is 0. `user i` is the `i`-th type of the program that has no parameters. `tuple` stands for
all structs and tuples with these fields. `seq t` is `[T]`, and `prim` any type of numbers (also `c_char`, `()`, `usize`), so that `str`
and `CStr` are `seq prim`.

Of the types that hide another one (closures, `Bytes`, `VirtualPtr`) `hidden` is what a value owns: it is not part of the type of
Rust. Closures of all arities are one type. -/
inductive Ty
  | prim
  | user (i : Nat)
  | seq (t : Ty)
  | ref (l : Nat) (t : Ty)
  | mut (l : Nat) (t : Ty)
  | raw (t : Ty)
  | phantom (t : Ty)
  | fnPtr (ret : Ty) (args : List Ty)
  | rustBox (t : Ty)
  | rustVec (t : Ty)
  | rc (t : Ty)
  | arc (t : Ty)
  | tuple (ts : List Ty)
  /-- `NonNullRef<T>`, src/ptr.rs 12-17 -/
  | nonNullRef (t : Ty)
  /-- `PhantomInvariant<T>`, src/utils/markers.rs 14-20 -/
  | phantomInvariant (t : Ty)
  /-- `NonNullMut<T>`, src/ptr.rs 19-28 -/
  | nonNullMut (t : Ty)
  /-- `NonNullOwned<T>`, src/ptr.rs 30-39 -/
  | nonNullOwned (t : Ty)
  /-- `repr_c::Box<T>`, src/boxed.rs 8-14 -/
  | cBox (t : Ty)
  /-- `repr_c::Vec<T>`, src/vec.rs 7-18 -/
  | cVec (t : Ty)
  /-- `c_slice::Raw<T>`, src/slice.rs 22-57 -/
  | sliceRaw (t : Ty)
  /-- `c_slice::Box<T>`, src/slice.rs 97-130 -/
  | sliceBoxed (t : Ty)
  /-- `c_slice::Ref<'_, T>`, src/slice.rs 262-298 -/
  | sliceRef (l : Nat) (t : Ty)
  /-- `c_slice::Mut<'_, T>`, src/slice.rs 392-428 -/
  | sliceMut (l : Nat) (t : Ty)
  /-- `repr_c::String`, src/string/_mod.rs 14-22 -/
  | string
  /-- `str::Box`, src/string/slice.rs 9-16 -/
  | strBoxed
  /-- `str::Ref<'_>`, src/string/slice.rs 119-127 -/
  | strRef (l : Nat)
  /-- `char_p::Ref<'_>`, src/char_p.rs 9-22 -/
  | charRef (l : Nat)
  /-- `char_p::Raw`, src/char_p.rs 273-285 -/
  | charRaw
  /-- `char_p::Box`, src/char_p.rs 353-364 -/
  | charBoxed
  /-- `SharedCStr`, src/shared_cstr.rs 13-20 -/
  | sharedCStr
  /-- `TaggedOption<T>`, src/option.rs 17-23 -/
  | tagged (t : Ty)
  /-- `Bytes<'_>`, src/bytes.rs 21-41 -/
  | bytes (l : Nat) (hidden : Ty)
  /-- `ArcDynFn0<Ret>` and so on, src/closure/arc.rs 33-61 -/
  | arcFn (hidden ret : Ty) (args : List Ty)
  /-- `BoxDynFnMut0<Ret>` and so on, src/closure/boxed.rs 32-56 -/
  | boxFn (hidden ret : Ty) (args : List Ty)
  /-- `RefDynFnMut0<'_, Ret>` and so on, src/closure/borrowed.rs 19-40 -/
  | refFn (l : Nat) (hidden ret : Ty) (args : List Ty)
  /-- `VirtualPtr<dyn 'l + Trait>`, or `… + Send`, `… + Sync`, src/dyn_traits/_mod.rs 145-155 -/
  | virt (l : Nat) (send sync : Bool) (hidden : Ty)

inductive Marker
  | send | sync
  deriving DecidableEq, Repr

/-- Arguments and result of the functions that closures consist of: `extern "C" fn(NonNull<c_void>, A…) -> Ret`. -/
def callTy (ret : Ty) (args : List Ty) : Ty := .fnPtr ret (.raw .prim :: args)

/-- `extern "C" fn(NonNull<c_void>)` -/
def releaseTy : Ty := .fnPtr .prim [.raw .prim]

/-- The fields of the structs. -/
def fields : Ty → Option (List Ty)
  -- src/ptr.rs 14-17
  | .nonNullRef t => some [.raw t]
  -- src/utils/markers.rs 15-20: `PhantomData<fn(&T) -> &T>`
  | .phantomInvariant t => some [.phantom (.fnPtr (.ref 0 t) [.ref 0 t])]
  -- src/ptr.rs 22-28
  | .nonNullMut t => some [.raw t, .phantomInvariant t]
  -- src/ptr.rs 33-39
  | .nonNullOwned t => some [.raw t, .phantom t]
  -- src/boxed.rs 11-13
  | .cBox t => some [.nonNullOwned t]
  -- src/vec.rs 12-17
  | .cVec t => some [.nonNullOwned t, .prim, .prim]
  -- src/slice.rs 48-56
  | .sliceRaw t => some [.raw t, .prim]
  -- src/slice.rs 121-129
  | .sliceBoxed t => some [.nonNullOwned t, .prim]
  -- src/slice.rs 282-297, with the `PhantomCovariantLifetime` of 18-20
  | .sliceRef l t => some [.nonNullRef t, .prim, .phantom (.ref l .prim)]
  -- src/slice.rs 412-427
  | .sliceMut l t => some [.nonNullMut t, .prim, .phantom (.ref l .prim)]
  -- src/string/_mod.rs 18-20
  | .string => some [.cVec .prim]
  -- src/string/slice.rs 13-15
  | .strBoxed => some [.sliceBoxed .prim]
  -- src/string/slice.rs 124-126
  | .strRef l => some [.sliceRef l .prim]
  -- src/char_p.rs 18-21
  | .charRef l => some [.nonNullRef .prim, .phantom (.ref l .prim)]
  -- src/char_p.rs 282-284
  | .charRaw => some [.nonNullRef .prim]
  -- src/char_p.rs 361-363
  | .charBoxed => some [.nonNullOwned .prim]
  -- src/shared_cstr.rs 16-20
  | .sharedCStr => some [.raw .prim]
  -- src/option.rs 20-23
  | .tagged t => some [t]
  -- src/bytes.rs 24-41
  | .bytes l _ => some [.raw .prim, .prim, .raw .prim, .prim, .raw .prim, .phantom (.ref l (.seq .prim))]
  -- src/closure/arc.rs 42-60
  | .arcFn _ ret args => some [.raw .prim, callTy ret args, releaseTy, .tuple [releaseTy]]
  -- src/closure/boxed.rs 41-55
  | .boxFn _ ret args => some [.raw .prim, .tuple [callTy ret args], .tuple [releaseTy]]
  -- src/closure/borrowed.rs 28-39
  | .refFn l _ ret args => some [.raw .prim, callTy ret args, .phantom (.ref l .prim)]
  | _ => none

/-- The `unsafe impl`s: what they ask for. Without one, the marker comes from the fields. -/
def impls : Marker → Ty → Option (List (Marker × Ty))
  -- src/boxed.rs 94-98, 100-104
  | m, .cBox t => some [(m, .rustBox t)]
  -- src/vec.rs 136-141, 143-148
  | m, .cVec t => some [(m, .rustVec t)]
  -- src/slice.rs 248-253, 254-259
  | m, .sliceBoxed t => some [(m, .rustBox (.seq t))]
  -- src/slice.rs 356-361, 363-368
  | m, .sliceRef l t => some [(m, .ref l (.seq t))]
  -- src/slice.rs 527-532, 533-538
  | m, .sliceMut l t => some [(m, .mut l (.seq t))]
  -- src/char_p.rs 70-74, 76-80 (for every lifetime)
  | m, .charRef l => some [(m, .ref l (.seq .prim))]
  -- src/char_p.rs 82-84, 86-88
  | _, .charRaw => some []
  -- src/char_p.rs 366-371, 373-378
  | m, .charBoxed => some [(m, .rustBox (.seq .prim))]
  -- src/shared_cstr.rs 22-26, 27-31
  | m, .sharedCStr => some [(m, .arc (.seq .prim))]
  -- src/bytes.rs 647-654, 656-663. (The fourth bound is of an `Arc` of a `dyn … + Send + Sync`, that is, always met. The impls without
  -- the feature `alloc`, 665-668, have the first bound only.)
  | m, .bytes l _ => some [(m, .ref l (.seq .prim)), (m, .arc (.seq .prim)), (m, .rustBox (.seq .prim))]
  -- src/closure/arc.rs 68-74, 76-82
  | _, .arcFn _ _ _ => some []
  -- src/closure/boxed.rs 70-79
  | .send, .boxFn _ _ _ => some []
  -- src/closure/borrowed.rs 43-49
  | .send, .refFn _ _ _ _ => some []
  | _, _ => none

/-- The types of the program that are `Send` and `Sync`. -/
structure Env where
  has : Marker → Nat → Prop

/-- Which types have the marker: the rules of Rust for its own types, the `unsafe impl`s, and otherwise the fields. -/
inductive Has (E : Env) : Marker → Ty → Prop
  | prim {m} : Has E m .prim
  | user {m i} : E.has m i → Has E m (.user i)
  | seq {m t} : Has E m t → Has E m (.seq t)
  | ref {m l t} : Has E .sync t → Has E m (.ref l t)
  | mut {m l t} : Has E m t → Has E m (.mut l t)
  | phantom {m t} : Has E m t → Has E m (.phantom t)
  | fnPtr {m ret args} : Has E m (.fnPtr ret args)
  | rustBox {m t} : Has E m t → Has E m (.rustBox t)
  | rustVec {m t} : Has E m t → Has E m (.rustVec t)
  | arc {m t} : Has E .send t → Has E .sync t → Has E m (.arc t)
  | tuple {m ts} : (∀ t ∈ ts, Has E m t) → Has E m (.tuple ts)
  /-- src/dyn_traits/_mod.rs 196-203 -/
  | virtSend {l y h} : Has E .send (.virt l true y h)
  /-- src/dyn_traits/_mod.rs 205-212 -/
  | virtSync {l s h} : Has E .sync (.virt l s true h)
  | manual {m t bs} : impls m t = some bs → (∀ b ∈ bs, Has E b.1 b.2) → Has E m t
  | auto {m t fs} : impls m t = none → fields t = some fs → (∀ f ∈ fs, Has E m f) → Has E m t

/-! ### Constructors -/

/-- Lifetimes, with the relation `'a: 'b` (outlives). -/
structure Lifetimes where
  out : Nat → Nat → Prop
  refl : ∀ l, out l l
  trans : ∀ a b c, out a b → out b c → out a c
  static : ∀ l, out 0 l

mutual
/-- `T: 'l`: all lifetimes in the type outlive `'l`. (Those of what is hidden are not visible.) -/
def Outlives (L : Lifetimes) (l : Nat) : Ty → Prop
  | .prim | .user _ | .string | .strBoxed | .charRaw | .charBoxed | .sharedCStr => True
  | .seq t | .raw t | .phantom t | .rustBox t | .rustVec t | .rc t | .arc t => Outlives L l t
  | .nonNullRef t | .phantomInvariant t | .nonNullMut t | .nonNullOwned t => Outlives L l t
  | .cBox t | .cVec t | .sliceRaw t | .sliceBoxed t | .tagged t => Outlives L l t
  | .ref k t | .mut k t | .sliceRef k t | .sliceMut k t => L.out k l ∧ Outlives L l t
  | .strRef k | .charRef k | .bytes k _ | .virt k _ _ _ => L.out k l
  | .fnPtr ret args | .arcFn _ ret args | .boxFn _ ret args => Outlives L l ret ∧ OutliveAll L l args
  | .refFn k _ ret args => L.out k l ∧ Outlives L l ret ∧ OutliveAll L l args
  | .tuple ts => OutliveAll L l ts
def OutliveAll (L : Lifetimes) (l : Nat) : List Ty → Prop
  | [] => True
  | t :: ts => Outlives L l t ∧ OutliveAll L l ts
end

/-- The pointers that convert to virtual pointers: src/proc_macro/derives/dyn_trait/coercions.rs 41-88. -/
def pointer (l : Nat) (t : Ty) : Dyn.Coercible → Ty
  | .box => .rustBox t
  | .rc true => .arc t
  | .rc false => .rc t
  | .ref true => .mut l t
  | .ref false => .ref l t

/-- What a new value can hide: the bounds of the constructors. `supers`: whether the program has traits with the supertraits `Send` or
`Sync` (and `dyn` types of them that do not name these). -/
inductive New (E : Env) (L : Lifetimes) (supers : Bool) : Ty → Prop
  /-- src/closure/arc.rs 84-94, 112-117: `Arc<F>` with `F: Send + Sync + 'static` -/
  | arcFn {f ret args} : Has E .send f → Has E .sync f → Outlives L 0 f → New E L supers (.arcFn (.arc f) ret args)
  /-- src/closure/boxed.rs 81-91, 109-113: `Box<F>` with `F: Send + 'static` -/
  | boxFn {f ret args} : Has E .send f → Outlives L 0 f → New E L supers (.boxFn (.rustBox f) ret args)
  /-- src/closure/borrowed.rs 51-61: `&'l mut F` with `F: Send + 'static`; 79-83: with `F: Send + 'l` -/
  | refFn {l f ret args} : Has E .send f → Outlives L l f → New E L supers (.refFn l (.mut l f) ret args)
  /-- src/bytes.rs 131-146, 148-172, 457-471: a slice (also `'static`); 174-221: none of it is kept if it is inlined -/
  | slice {l} : New E L supers (.bytes l (.ref l (.seq .prim)))
  /-- src/bytes.rs 174-221, 67-80: inlined -/
  | inline {l} : New E L supers (.bytes l (.tuple []))
  /-- src/bytes.rs 486-498 -/
  | arcBytes {l} : New E L supers (.bytes l (.arc (.seq .prim)))
  /-- src/bytes.rs 500-522: `T: Send + Sync + 'static` -/
  | arcOf {l t} : Has E .send t → Has E .sync t → Outlives L 0 t → New E L supers (.bytes l (.arc t))
  /-- src/bytes.rs 524-548, 550-554 -/
  | boxBytes {l} : New E L supers (.bytes l (.rustBox (.seq .prim)))
  /-- src/proc_macro/derives/dyn_trait/_mod.rs 251-284 and coercions.rs 20-39, 231-270: a pointer to `T` converts to
  `VirtualPtr<dyn 'l + Trait>`, with `+ Send` and `+ Sync` as `d` says, if the impl is generated, the kind of pointer is eligible, and
  `T: 'l + Trait`, with `+ Send` and `+ Sync` as `d` says. `a` and `b`: whether `Send` and `Sync` are supertraits of the trait; `T: Trait`
  and `dyn Trait` then have them. -/
  | virt {d src l t} (a b : Bool) : (supers = false → (a = true → d.send = true) ∧ (b = true → d.sync = true)) →
    Dyn.Decl.generated d = true → Dyn.Coercible.isEligible d src = true →
    (d.valueSend a = true → Has E .send t) → (d.valueSync b = true → Has E .sync t) → Outlives L l t →
    New E L supers (.virt l (d.valueSend a) (d.valueSync b) (pointer l t src))

end Verif.Markers
