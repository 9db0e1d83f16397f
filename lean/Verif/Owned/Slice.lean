/-!
# Model of the borrowed slices

`src/slice.rs`: `slice_ref` (`c_slice::Ref`), `slice_mut` (`c_slice::Mut`), `slice_raw`
(`c_slice::Raw`), and the views given by `slice_boxed` and `repr_c::Vec`.  `str_ref`
(`src/string/slice.rs` lines 117-158) is `#[repr(transparent)]` over `slice_ref<u8>` and forwards.

Memory maps an address to the element stored there.  Lifetimes (who may use a view, and when) are
checked by the Rust compiler and not modelled.
-/
namespace Verif.Owned.Slice

/-- `&[T]` and `&mut [T]`. (language) -/
structure Fat where
  ptr : Nat
  len : Nat
deriving DecidableEq, Repr

/-- `src/slice.rs` lines 262-298 (the `PhantomData` field has no size and is left out). -/
structure SliceRef where
  ptr : Nat
  len : Nat
deriving DecidableEq, Repr

/-- `src/slice.rs` lines 392-428. -/
structure SliceMut where
  ptr : Nat
  len : Nat
deriving DecidableEq, Repr

/-- `src/slice.rs` lines 46-57. -/
structure SliceRaw where
  ptr : Nat
  len : Nat
deriving DecidableEq, Repr

/-- `src/slice.rs` lines 118-130. -/
structure SliceBoxed where
  ptr : Nat
  len : Nat
deriving DecidableEq, Repr

/-- `src/vec.rs` lines 11-17. -/
structure CVec where
  ptr : Nat
  len : Nat
  cap : Nat
deriving DecidableEq, Repr

/-- `From<&[T]> for slice_ref`, `src/slice.rs` lines 300-315. -/
def SliceRef.ofSlice (s : Fat) : SliceRef := { len := s.len, ptr := s.ptr }
/-- `slice_ref::as_slice`, lines 317-326, and `Deref`, lines 343-354. -/
def SliceRef.asSlice (s : SliceRef) : Fat := ⟨s.ptr, s.len⟩
/-- `Clone for slice_ref`, lines 332-341. -/
def SliceRef.clone (s : SliceRef) : SliceRef := s
/-- `From<slice_ref> for slice_raw`, lines 381-390. -/
def SliceRef.toRaw (s : SliceRef) : SliceRaw := { ptr := s.ptr, len := s.len }
/-- `From<&mut [T]> for slice_mut`, lines 430-445. -/
def SliceMut.ofSlice (s : Fat) : SliceMut := { len := s.len, ptr := s.ptr }
/-- `slice_mut::as_slice`, lines 516-524. -/
def SliceMut.asSlice (s : SliceMut) : Fat := ⟨s.ptr, s.len⟩
/-- `From<slice_mut> for slice_ref`, lines 447-457: `(&*it.as_slice()).into()`. -/
def SliceMut.toRef (s : SliceMut) : SliceRef := SliceRef.ofSlice s.asSlice
/-- `slice_mut::as_ref`, lines 486-499. -/
def SliceMut.asRef (s : SliceMut) : SliceRef := { ptr := s.ptr, len := s.len }
/-- `slice_mut::as_mut`, lines 501-514. -/
def SliceMut.asMut (s : SliceMut) : SliceMut := { ptr := s.ptr, len := s.len }
/-- `Deref for slice_mut`, lines 459-471: `self.as_ref().as_slice()`. -/
def SliceMut.deref (s : SliceMut) : Fat := s.asRef.asSlice
/-- `DerefMut for slice_mut`, lines 473-483: `self.as_mut().as_slice()`. -/
def SliceMut.derefMut (s : SliceMut) : Fat := s.asMut.asSlice
/-- `From<slice_mut> for slice_raw`, lines 551-560. -/
def SliceMut.toRaw (s : SliceMut) : SliceRaw := { ptr := s.ptr, len := s.len }
/-- `slice_raw::as_ref`, lines 60-76. -/
def SliceRaw.asRef (s : SliceRaw) : SliceRef := { ptr := s.ptr, len := s.len }
/-- `slice_raw::as_mut`, lines 78-94. -/
def SliceRaw.asMut (s : SliceRaw) : SliceMut := { ptr := s.ptr, len := s.len }
/-- `Deref for slice_boxed`, lines 221-245. -/
def SliceBoxed.deref (s : SliceBoxed) : Fat := ⟨s.ptr, s.len⟩
/-- `slice_boxed::as_ref`, lines 133-139. -/
def SliceBoxed.asRef (s : SliceBoxed) : SliceRef := SliceRef.ofSlice s.deref
/-- `slice_boxed::as_mut`, lines 141-147. -/
def SliceBoxed.asMut (s : SliceBoxed) : SliceMut := SliceMut.ofSlice s.deref
/-- `slice_boxed::as_slice`, lines 149-155. -/
def SliceBoxed.asSlice (s : SliceBoxed) : Fat := s.asRef.asSlice
/-- `slice_boxed::as_slice_mut`, lines 157-163. -/
def SliceBoxed.asSliceMut (s : SliceBoxed) : Fat := s.asMut.asSlice
/-- `Vec::as_ref`, `src/vec.rs` lines 20-32. -/
def CVec.asRef (v : CVec) : SliceRef := { ptr := v.ptr, len := v.len }
/-- `Vec::as_mut`, `src/vec.rs` lines 34-45. -/
def CVec.asMut (v : CVec) : SliceMut := { ptr := v.ptr, len := v.len }

/-- Anything that denotes a run of elements. Not in the code: `src/slice.rs` and `src/vec.rs`, the types
above. -/
inductive View
  | rref (s : Fat) | rmut (s : Fat) | cref (s : SliceRef) | cmut (s : SliceMut) | raw (s : SliceRaw)
  | boxed (s : SliceBoxed) | vec (v : CVec)
deriving DecidableEq, Repr

/-- The conversions. The functions above, by what they give. -/
inductive Conv
  | toRef | toSlice | toSliceMut | asRef | asMut | toRaw | clone | deref | derefMut
deriving DecidableEq, Repr

/-- One conversion, if there is such a method on such a value. The functions called carry the citations.
-/
def conv : Conv → View → Option View
  | .toRef, .rref s => some (.cref (SliceRef.ofSlice s))
  | .toRef, .cmut s => some (.cref s.toRef)
  | .asMut, .rmut s => some (.cmut (SliceMut.ofSlice s))
  | .toSlice, .cref s => some (.rref s.asSlice)
  | .toSlice, .boxed s => some (.rref s.asSlice)
  | .toSliceMut, .cmut s => some (.rmut s.asSlice)
  | .toSliceMut, .boxed s => some (.rmut s.asSliceMut)
  | .clone, .cref s => some (.cref s.clone)
  | .deref, .cref s => some (.rref s.asSlice)
  | .deref, .cmut s => some (.rref s.deref)
  | .deref, .boxed s => some (.rref s.deref)
  | .derefMut, .cmut s => some (.rmut s.derefMut)
  | .asRef, .cmut s => some (.cref s.asRef)
  | .asRef, .raw s => some (.cref s.asRef)
  | .asRef, .boxed s => some (.cref s.asRef)
  | .asRef, .vec v => some (.cref v.asRef)
  | .asMut, .cmut s => some (.cmut s.asMut)
  | .asMut, .raw s => some (.cmut s.asMut)
  | .asMut, .boxed s => some (.cmut s.asMut)
  | .asMut, .vec v => some (.cmut v.asMut)
  | .toRaw, .cref s => some (.raw s.toRaw)
  | .toRaw, .cmut s => some (.raw s.toRaw)
  | _, _ => none

/-- A chain of conversions. Not in the code: a program. -/
def convs : List Conv → View → Option View
  | [], v => some v
  | c :: cs, v => (conv c v).bind (convs cs)

/-- Pointer and length of a view. Not in the code: the fields. -/
def View.fat : View → Fat
  | .rref s => s
  | .rmut s => s
  | .cref s => ⟨s.ptr, s.len⟩
  | .cmut s => ⟨s.ptr, s.len⟩
  | .raw s => ⟨s.ptr, s.len⟩
  | .boxed s => ⟨s.ptr, s.len⟩
  | .vec v => ⟨v.ptr, v.len⟩

section
variable {α : Type}

/-- The elements of `T` in memory, by address. Not in the code. -/
abbrev Mem (α : Type) := Nat → α

/-- What a program that indexes the view with `0, 1, …` reads; `sz` is `size_of::<T>()`. (core) Indexing,
through `Deref`. -/
def elems (sz : Nat) (m : Mem α) (s : Fat) : List α := (List.range s.len).map (fun k => m (s.ptr + k * sz))

/-- `view[k] = x`: `none` when the bounds check panics. (core) Indexing, through `DerefMut`. -/
def write (sz : Nat) (m : Mem α) (s : Fat) (k : Nat) (x : α) : Option (Mem α) :=
  if k < s.len then some (fun p => if p = s.ptr + k * sz then x else m p) else none

/-- `==` on slices (`core`): same length, equal elements. Called at the lines cited at `refEq`. -/
def sliceEq (eq : α → α → Bool) : List α → List α → Bool
  | [], [] => true
  | a :: l, b :: r => eq a b && sliceEq eq l r
  | _, _ => false

/-- `cmp` on slices (`core`): lexicographic. Called at the lines cited at `refCmp`. -/
def sliceCmp (cmp : α → α → Ordering) : List α → List α → Ordering
  | [], [] => .eq
  | [], _ :: _ => .lt
  | _ :: _, [] => .gt
  | a :: l, b :: r => match cmp a b with
    | .eq => sliceCmp cmp l r
    | o => o

/-- `PartialEq::eq` of `slice_ref`, `slice_mut`, `slice_boxed`: `self[..] == other[..]`,
`src/slice.rs` lines 592-600, 645-653, 699-707. -/
def refEq (eq : α → α → Bool) (sz : Nat) (m : Mem α) (a b : SliceRef) : Bool :=
  sliceEq eq (elems sz m a.asSlice) (elems sz m b.asSlice)
/-- See `refEq`. -/
def mutEq (eq : α → α → Bool) (sz : Nat) (m : Mem α) (a b : SliceMut) : Bool :=
  sliceEq eq (elems sz m a.deref) (elems sz m b.deref)
/-- See `refEq`. -/
def boxEq (eq : α → α → Bool) (sz : Nat) (m : Mem α) (a b : SliceBoxed) : Bool :=
  sliceEq eq (elems sz m a.deref) (elems sz m b.deref)

/-- `Ord::cmp` (and `PartialOrd::partial_cmp`): `self[..].cmp(&other[..])`,
`src/slice.rs` lines 569-587, 622-640, 676-694. -/
def refCmp (cmp : α → α → Ordering) (sz : Nat) (m : Mem α) (a b : SliceRef) : Ordering :=
  sliceCmp cmp (elems sz m a.asSlice) (elems sz m b.asSlice)
/-- See `refCmp`. -/
def mutCmp (cmp : α → α → Ordering) (sz : Nat) (m : Mem α) (a b : SliceMut) : Ordering :=
  sliceCmp cmp (elems sz m a.deref) (elems sz m b.deref)
/-- See `refCmp`. -/
def boxCmp (cmp : α → α → Ordering) (sz : Nat) (m : Mem α) (a b : SliceBoxed) : Ordering :=
  sliceCmp cmp (elems sz m a.deref) (elems sz m b.deref)
end
end Verif.Owned.Slice
