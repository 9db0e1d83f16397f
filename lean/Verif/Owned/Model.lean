/-!
# Model of the owning containers

Models `src/vec.rs`, `src/slice.rs` (`slice_boxed`), `src/string/_mod.rs`, `src/string/slice.rs`
(`str_boxed`), `src/boxed.rs` and the pointer wrapper they share (`src/ptr.rs`).

The Rust standard library containers (`Vec`, `String`, `Box<[T]>`, `Box<str>`, `Box<T>`) are
modelled as well, since the code converts from and to them: they are a pointer, a length and a
capacity over an explicit heap.  Undefined behaviour (double free, release with the wrong size,
read of uninitialised or released memory) is an explicit `Fault`.

Simplifications, valid for the whole file:
* an element is a value of the type `α`; dropping an element is recorded in the output of the
  operation which drops it, a panicking element destructor or `Clone` is not modelled;
* sizes are in elements, not bytes; an allocation never fails; lengths do not overflow `usize`.
-/
namespace Verif.Owned

/-- The element type: whether it is zero-sized, and (for `u8`) which sequences are UTF-8. Not in the code:
the `T` of `src/vec.rs` lines 7-18, `src/slice.rs` lines 118-130 and `src/boxed.rs` lines 6-14. -/
structure Elem (α : Type) where
  zst : Bool
  text : List α → Bool
  zst_eq : zst = true → ∀ x y : α, x = y
  text_nil : text [] = true
  text_append : ∀ a b, text a = true → text b = true → text (a ++ b) = true

/-- Undefined behaviour. Not in the code: what the `unsafe` operations of those files must not do. -/
inductive Fault
  | doubleFree | badFree | sizeMismatch | useAfterFree | outOfBounds | uninit
deriving DecidableEq, Repr

/-- An allocation: `none` cells are uninitialised. Models the allocator (std). -/
structure Block (α : Type) where
  mem : List (Option α)
  live : Bool
deriving DecidableEq, Repr

/-- All allocations ever made (std). -/
abbrev Heap (α : Type) := List (Block α)

/-- `usize::MAX` on a 64-bit target. -/
def usizeMax : Nat := 2 ^ 64 - 1

section
variable {α : Type} [Inhabited α] (E : Elem α)

/-- The global allocator as `Vec`/`Box` use it: nothing is allocated for zero bytes (the pointer is then
dangling: `none`). (std) -/
def alloc (h : Heap α) (c : List α) (cap : Nat) : Heap α × Option Nat :=
  if E.zst || cap == 0 then (h, none)
  else (h ++ [⟨c.map some ++ List.replicate (cap - c.length) none, true⟩], some h.length)

/-- Release of the storage for `cap` elements (`__rust_dealloc`, and `/repo/src/ptr.rs` lines 175-201). -/
def dealloc (h : Heap α) (p : Option Nat) (cap : Nat) : Except Fault (Heap α) :=
  if E.zst || cap == 0 then .ok h
  else match p with
    | none => .error .badFree
    | some i =>
      match h[i]? with
      | none => .error .badFree
      | some b =>
        if !b.live then .error .doubleFree
        else if b.mem.length ≠ cap then .error .sizeMismatch
        else .ok (h.set i { b with live := false })

/-- (language) A read: the cells must be initialised. -/
def allSome : List (Option α) → Except Fault (List α)
  | [] => .ok []
  | none :: _ => .error .uninit
  | some x :: l => (x :: ·) <$> allSome l

/-- The memory behind a pointer. (language) -/
def memAt (h : Heap α) (p : Option Nat) : Except Fault (List (Option α)) :=
  match p with
  | none => .error .outOfBounds
  | some i =>
    match h[i]? with
    | none => .error .outOfBounds
    | some b => if b.live then .ok b.mem else .error .useAfterFree

/-- `slice::from_raw_parts(ptr, len)`, and a read of all of it. (core) `src/slice.rs` lines 221-245,
317-326. -/
def readN (h : Heap α) (p : Option Nat) (n : Nat) : Except Fault (List α) :=
  if n = 0 then .ok []
  else if E.zst then .ok (List.replicate n default)
  else do
    let m ← memAt h p
    if m.length < n then .error .outOfBounds else allSome (m.take n)

/-- A write of `xs` at index `k` through a pointer. (core) -/
def writeAt (h : Heap α) (p : Option Nat) (k : Nat) (xs : List α) : Except Fault (Heap α) :=
  if E.zst || xs.length == 0 then .ok h
  else do
    let m ← memAt h p
    if m.length < k + xs.length then .error .outOfBounds
    else match p with
      | none => .error .outOfBounds
      | some i => .ok (h.set i ⟨m.take k ++ xs.map some ++ m.drop (k + xs.length), true⟩)

/-! ## The standard library containers -/

/-- `std::vec::Vec` (and `String`, whose bytes it holds). (std) -/
structure RVec where
  ptr : Option Nat
  len : Nat
  cap : Nat
deriving DecidableEq, Repr

/-- `Box<[T]>` (and `Box<str>`): a fat pointer. (std) -/
structure RBox where
  ptr : Option Nat
  len : Nat
deriving DecidableEq, Repr

/-- `Vec::capacity`: `usize::MAX` for zero-sized elements. (std) Used at `src/vec.rs` line 57. -/
def RVec.capacity (v : RVec) : Nat := if E.zst then usizeMax else v.cap

/-- A new vector with these contents and some spare room. (std) -/
def RVec.new (h : Heap α) (c : List α) (extra : Nat) : Heap α × RVec :=
  let r := alloc E h c (c.length + extra)
  (r.1, ⟨r.2, c.length, c.length + extra⟩)

/-- `<Vec as Drop>::drop`: the elements are dropped, then the buffer is released. (std) -/
def RVec.drop (h : Heap α) (v : RVec) : Except Fault (Heap α × List α) := do
  let xs ← readN E h v.ptr v.len
  let h' ← dealloc E h v.ptr v.cap
  .ok (h', xs)

/-- Reallocation to a capacity of `n` (at least the length): `reserve`, `shrink_to`. (std) -/
def RVec.realloc (h : Heap α) (v : RVec) (n : Nat) : Except Fault (Heap α × RVec) := do
  let n := max n v.len
  let xs ← readN E h v.ptr v.len
  let h' ← dealloc E h v.ptr v.cap
  let r := alloc E h' xs n
  .ok (r.1, ⟨r.2, v.len, n⟩)

/-- `extend_from_slice`/`push`/`push_str`; `g` is the extra growth `Vec` chooses when it must reallocate.
(std) -/
def RVec.extend (h : Heap α) (v : RVec) (xs : List α) (g : Nat) : Except Fault (Heap α × RVec) := do
  if E.zst || decide (v.len + xs.length ≤ v.cap) then
    let h' ← writeAt E h v.ptr v.len xs
    .ok (h', { v with len := v.len + xs.length })
  else
    let (h', v') ← v.realloc E h (v.len + xs.length + g)
    let h'' ← writeAt E h' v'.ptr v'.len xs
    .ok (h'', { v' with len := v'.len + xs.length })

/-- `Vec::into_boxed_slice`/`String::into_boxed_str`: spare capacity is given back. (std) -/
def RVec.intoBox (h : Heap α) (v : RVec) : Except Fault (Heap α × RBox) := do
  if decide (v.len < v.cap) && !E.zst then
    let (h', v') ← v.realloc E h v.len
    .ok (h', ⟨v'.ptr, v'.len⟩)
  else .ok (h, ⟨v.ptr, v.len⟩)

/-- `<[T]>::into_vec`/`Box<str>::into_string`. (std) -/
def RBox.intoVec (b : RBox) : RVec := ⟨b.ptr, b.len, b.len⟩

/-- A new `Box<[T]>`. (std) -/
def RBox.new (h : Heap α) (c : List α) : Heap α × RBox :=
  let r := alloc E h c c.length
  (r.1, ⟨r.2, c.length⟩)

/-- `<Box<[T]> as Drop>::drop`. (std) -/
def RBox.drop (h : Heap α) (b : RBox) : Except Fault (Heap α × List α) := do
  let xs ← readN E h b.ptr b.len
  let h' ← dealloc E h b.ptr b.len
  .ok (h', xs)

/-! ## `repr_c::Vec` -/

/-- `src/vec.rs` lines 7-18. -/
structure CVec where
  ptr : Option Nat
  len : Nat
  cap : Nat
deriving DecidableEq, Repr

/-- `From<rust::Vec<T>> for Vec<T>`, `src/vec.rs` lines 47-67. -/
def CVec.ofRust (v : RVec) : CVec := { ptr := v.ptr, len := v.len, cap := v.capacity E }

/-- `From<Vec<T>> for rust::Vec<T>`, `src/vec.rs` lines 69-86: `from_raw_parts(ptr, len, cap)`. -/
def CVec.toRust (v : CVec) : RVec := { ptr := v.ptr, len := v.len, cap := v.cap }

/-- `Drop for Vec<T>`, `src/vec.rs` lines 88-101. -/
def CVec.drop (h : Heap α) (v : CVec) : Except Fault (Heap α × List α) := v.toRust.drop E h

/-- `Deref for Vec<T>`, `src/vec.rs` lines 103-117. -/
def CVec.deref (h : Heap α) (v : CVec) : Except Fault (List α) := readN E h v.ptr v.len

/-- `Vec::EMPTY`, `src/vec.rs` lines 148-153. -/
def CVec.empty : CVec := { ptr := none, len := 0, cap := 0 }

/-- `Clone for Vec<T>`, `src/vec.rs` lines 172-181: `self[..].to_owned()`. -/
def CVec.clone (h : Heap α) (v : CVec) : Except Fault (Heap α × CVec) := do
  let xs ← v.deref E h
  let r := RVec.new E h xs 0
  .ok (r.1, CVec.ofRust E r.2)

/-! ## `c_slice::Box` -/

/-- `slice_boxed`, `src/slice.rs` lines 93-126. -/
structure CBox where
  ptr : Option Nat
  len : Nat
deriving DecidableEq, Repr

/-- `From<rust::Box<[T]>> for slice_boxed<T>`, `src/slice.rs` lines 163-179. -/
def CBox.ofRust (b : RBox) : CBox := { len := b.len, ptr := b.ptr }

/-- `From<slice_boxed<T>> for rust::Box<[T]>`, `src/slice.rs` lines 181-197. -/
def CBox.toRust (b : CBox) : RBox := { ptr := b.ptr, len := b.len }

/-- `Drop for slice_boxed<T>`, `src/slice.rs` lines 199-216. -/
def CBox.drop (h : Heap α) (b : CBox) : Except Fault (Heap α × List α) := (RBox.mk b.ptr b.len).drop E h

/-- `Deref for slice_boxed<T>`, `src/slice.rs` lines 218-231. -/
def CBox.deref (h : Heap α) (b : CBox) : Except Fault (List α) := readN E h b.ptr b.len

/-- `Default for slice_boxed<T>`, `src/slice.rs` lines 718-726: `Box::new([])`. -/
def CBox.default (h : Heap α) : Heap α × CBox :=
  let r := RBox.new E h []
  (r.1, CBox.ofRust r.2)

/-- `Clone for slice_boxed<T>`, `src/slice.rs` lines 727-736:
`Vec::from(self.as_slice()).into_boxed_slice().into()`. -/
def CBox.clone (h : Heap α) (b : CBox) : Except Fault (Heap α × CBox) := do
  let xs ← b.deref E h
  let r := RVec.new E h xs 0
  let (h', b') ← r.2.intoBox E r.1
  .ok (h', CBox.ofRust b')

/-! ## `repr_c::Box<T>` for a sized `T` -/

/-- `Box<T>`: storage for exactly one element. (std) -/
structure RBox1 where
  ptr : Option Nat
deriving DecidableEq, Repr

/-- `Box_<T>`, `src/boxed.rs` lines 6-14. -/
structure CBox1 where
  ptr : Option Nat
deriving DecidableEq, Repr

/-- `Box::new`. (std) -/
def RBox1.new (h : Heap α) (x : α) : Heap α × RBox1 :=
  let r := alloc E h [x] 1
  (r.1, ⟨r.2⟩)

/-- `<Box<T> as Drop>::drop`. (std) -/
def RBox1.drop (h : Heap α) (b : RBox1) : Except Fault (Heap α × List α) := do
  let xs ← readN E h b.ptr 1
  let h' ← dealloc E h b.ptr 1
  .ok (h', xs)

/-- `From<rust::Box<T>> for Box_<T>`, `src/boxed.rs` lines 16-28. -/
def CBox1.ofRust (b : RBox1) : CBox1 := ⟨b.ptr⟩

/-- `Box_::into`, `src/boxed.rs` lines 39-49. -/
def CBox1.toRust (b : CBox1) : RBox1 := ⟨b.ptr⟩

/-- `Box_::new`, `src/boxed.rs` lines 31-37. -/
def CBox1.new (h : Heap α) (x : α) : Heap α × CBox1 :=
  let r := RBox1.new E h x
  (r.1, CBox1.ofRust r.2)

/-- `Drop for Box_<T>`, `src/boxed.rs` lines 52-64. -/
def CBox1.drop (h : Heap α) (b : CBox1) : Except Fault (Heap α × List α) := (RBox1.mk b.ptr).drop E h

/-- `Deref for Box_<T>`, `src/boxed.rs` lines 66-79. -/
def CBox1.deref (h : Heap α) (b : CBox1) : Except Fault (List α) := readN E h b.ptr 1

/-- `Clone for Box_<T>`, `src/boxed.rs` lines 105-114: `Self::new(T::clone(self))`. -/
def CBox1.clone (h : Heap α) (b : CBox1) : Except Fault (Heap α × CBox1) := do
  let xs ← b.deref E h
  .ok (CBox1.new E h (xs.headD default))

/-! ## Programs -/

/-- The variables a program holds.  `repr_c::String` and `str_boxed` are `#[repr(transparent)]`
over `Vec<u8>` and `slice_boxed<u8>` (`src/string/_mod.rs` lines 14-21, `src/string/slice.rs`
lines 6-16). -/
inductive Val
  | rvec (v : RVec) | cvec (v : CVec)
  | rstr (v : RVec) | cstr (v : CVec)
  | rbs (b : RBox) | cbs (b : CBox)
  | rbstr (b : RBox) | cbstr (b : CBox)
  | rb (b : RBox1) | cb (b : CBox1)
deriving DecidableEq, Repr

/-- What a closure may do to the Rust vector it is lent. Not in the code: the methods of `Vec` and
`String` (std) that the closure given to `with_rust_mut` calls. -/
inductive Edit (α : Type)
  /-- `extend_from_slice`/`push`/`push_str`. -/
  | extend (xs : List α) (growth : Nat)
  | pop
  | truncate (n : Nat)
  /-- `v[k] = x` -/
  | set (k : Nat) (x : α)
  /-- `reserve`/`shrink_to_fit`/`shrink_to`. -/
  | realloc (n : Nat)
  /-- `*v = vec` for a fresh `vec`. -/
  | replace (c : List α) (extra : Nat)
  /-- `mem::swap(v, other)` with another vector of the program. -/
  | swap (j : Nat)
deriving DecidableEq, Repr

/-- What the closure sees. Not in the code. -/
inductive EOut (α : Type)
  | unit
  | popped (x : Option α)
  | dropped (xs : List α)
  /-- Index out of bounds: the closure would panic here. -/
  | oob
  /-- Not possible in a well-typed program. -/
  | illTyped
deriving DecidableEq, Repr

/-- What a program can do: the functions modelled above; `step` gives the function for each operation. -/
inductive Op (α : Type)
  | newVec (c : List α) (extra : Nat)
  | newStr (c : List α) (extra : Nat)
  | newBoxSlice (c : List α)
  | newBoxStr (c : List α)
  | newBox (x : α)
  /-- `repr_c::Vec::EMPTY` -/
  | emptyVec
  /-- `repr_c::String::EMPTY` -/
  | emptyStr
  /-- `c_slice::Box::default()` -/
  | defaultBoxSlice
  /-- `let x: repr_c::… = x.into()` -/
  | toC (i : Nat)
  /-- `let x: std… = x.into()` -/
  | toRust (i : Nat)
  /-- `str::Box::from(string)` -/
  | strToBoxC (i : Nat)
  /-- `String::from(boxed_str)` -/
  | boxCToStr (i : Nat)
  | clone (i : Nat)
  | read (i : Nat)
  | capacity (i : Nat)
  /-- `x[k] = v`, through `DerefMut`. -/
  | write (i k : Nat) (v : α)
  /-- A direct use of a Rust vector or string. -/
  | edit (i : Nat) (e : Edit α)
  /-- `x.with_rust_mut(closure)`: the closure makes these edits, then returns or panics. -/
  | withMut (i : Nat) (es : List (Edit α)) (panics : Bool)
  | drop (i : Nat)
deriving DecidableEq, Repr

/-- What the program observes of an operation (not in the code). -/
inductive Out (α : Type)
  | unit
  | contents (c : List α)
  | num (n : Nat)
  | dropped (xs : List α)
  | oob
  | edited (e : EOut α)
  | closure (outs : List (EOut α)) (panicked : Bool)
  | illTyped
deriving DecidableEq, Repr

/-- Not in the code: memory and variables of a program. -/
structure State (α : Type) where
  heap : Heap α
  vars : List (Option Val)
deriving DecidableEq, Repr

/-- A program before its first operation (not in the code). -/
def State.init : State α := ⟨[], []⟩

/-- The variable number `i`, unless it was moved or dropped (not in the code). -/
def State.var (s : State α) (i : Nat) : Option Val := (s.vars[i]?).join

/-- A `let` of the program (not in the code). -/
def State.push (s : State α) (h : Heap α) (v : Val) : State α := ⟨h, s.vars ++ [some v]⟩

/-- An assignment or move of the program (not in the code). -/
def State.set (s : State α) (h : Heap α) (i : Nat) (v : Option Val) : State α := ⟨h, s.vars.set i v⟩

/-- What may be done to a `String` (contents stay UTF-8). (std) The safe methods of `String`.
Simplification: a truncation of a string is to nothing, and characters are not popped. -/
def Edit.okText : Edit α → Bool
  | .extend xs _ => E.text xs
  | .truncate n => n == 0
  | .realloc _ => true
  | .replace c _ => E.text c
  | .swap _ => true
  | .pop => false
  | .set _ _ => false

/-- An edit of a vector (`str = false`) or string, borrowed from the variable `i` as `v`. A swap with the
borrowed variable itself does not pass the borrow checker. (std) -/
def editLocal (str : Bool) (i : Nat) (s : State α) (v : RVec) (e : Edit α) :
    Except Fault (State α × RVec × EOut α) :=
  if str && !e.okText E then .ok (s, v, .illTyped)
  else match e with
  | .extend xs g => do
      let (h, v') ← v.extend E s.heap xs g
      .ok (⟨h, s.vars⟩, v', .unit)
  | .pop => do
      let xs ← readN E s.heap v.ptr v.len
      .ok (s, { v with len := v.len - 1 }, .popped xs.getLast?)
  | .truncate n => do
      let xs ← readN E s.heap v.ptr v.len
      .ok (s, { v with len := min n v.len }, .dropped (xs.drop n))
  | .set k x =>
      if k < v.len then do
        let xs ← readN E s.heap v.ptr v.len
        let h ← writeAt E s.heap v.ptr k [x]
        .ok (⟨h, s.vars⟩, v, .dropped ((xs.drop k).take 1))
      else .ok (s, v, .oob)
  | .realloc n => do
      let (h, v') ← v.realloc E s.heap n
      .ok (⟨h, s.vars⟩, v', .unit)
  | .replace c extra => do
      let r := RVec.new E s.heap c extra
      let (h, xs) ← v.drop E r.1
      .ok (⟨h, s.vars⟩, r.2, .dropped xs)
  | .swap j =>
      if j = i then .ok (s, v, .illTyped)
      else match s.var j, str with
      | some (.rvec w), false => .ok (s.set s.heap j (some (.rvec v)), w, .unit)
      | some (.rstr w), true => .ok (s.set s.heap j (some (.rstr v)), w, .unit)
      | _, _ => .ok (s, v, .illTyped)

/-- The closure's edits, one after the other. Not in the code. -/
def editsLocal (str : Bool) (i : Nat) (s : State α) (v : RVec) :
    List (Edit α) → Except Fault (State α × RVec × List (EOut α))
  | [] => .ok (s, v, [])
  | e :: es => do
      let (s1, v1, o) ← editLocal E str i s v e
      let (s2, v2, os) ← editsLocal str i s1 v1 es
      .ok (s2, v2, o :: os)

/-- `Vec::with_rust_mut`, `src/vec.rs` lines 155-170, for an arbitrary closure.  The vector is
read out of the variable `i` (whose bits stay as they are meanwhile), lent to the closure as a
Rust vector and written back: `try_eval(f).finally(write)` runs the write both when `f` returns
and when it unwinds.  The closure reports what happened (`R`) and whether it panicked.

`String::with_rust_mut` (`src/string/_mod.rs` lines 101-112) is the same function, with the vector
transmuted to a `String`. -/
def withRustMut {R : Type} (s : State α) (i : Nat) (c : CVec) (wrap : CVec → Val)
    (f : State α → RVec → Except Fault (State α × RVec × R × Bool)) :
    Except Fault (State α × R × Bool) := do
  let v := c.toRust
  let (s', v', r, panicked) ← f s v
  let s'' := s'.set s'.heap i (some (wrap (CVec.ofRust E v')))
  .ok (s'', r, panicked)

/-- One step of a program. The functions called carry the citations. -/
def step (s : State α) : Op α → Except Fault (State α × Out α)
  | .newVec c extra =>
      let r := RVec.new E s.heap c extra
      .ok (s.push r.1 (.rvec r.2), .unit)
  | .newStr c extra =>
      if E.text c then
        let r := RVec.new E s.heap c extra
        .ok (s.push r.1 (.rstr r.2), .unit)
      else .ok (s, .illTyped)
  | .newBoxSlice c =>
      let r := RBox.new E s.heap c
      .ok (s.push r.1 (.rbs r.2), .unit)
  | .newBoxStr c =>
      if E.text c then
        let r := RBox.new E s.heap c
        .ok (s.push r.1 (.rbstr r.2), .unit)
      else .ok (s, .illTyped)
  | .newBox x =>
      let r := CBox1.new E s.heap x
      .ok (s.push r.1 (.cb r.2), .unit)
  | .emptyVec => .ok (s.push s.heap (.cvec CVec.empty), .unit)
  -- `src/string/_mod.rs` lines 98-99
  | .emptyStr => .ok (s.push s.heap (.cstr CVec.empty), .unit)
  | .defaultBoxSlice =>
      let r := CBox.default E s.heap
      .ok (s.push r.1 (.cbs r.2), .unit)
  | .toC i =>
      match s.var i with
      | some (.rvec v) => .ok (s.set s.heap i (some (.cvec (CVec.ofRust E v))), .unit)
      -- `From<rust::String> for String`, `src/string/_mod.rs` lines 23-32
      | some (.rstr v) => .ok (s.set s.heap i (some (.cstr (CVec.ofRust E v))), .unit)
      | some (.rbs b) => .ok (s.set s.heap i (some (.cbs (CBox.ofRust b))), .unit)
      -- `From<rust::Box<str>> for str_boxed`, `src/string/slice.rs` lines 18-28
      | some (.rbstr b) => .ok (s.set s.heap i (some (.cbstr (CBox.ofRust b))), .unit)
      | some (.rb b) => .ok (s.set s.heap i (some (.cb (CBox1.ofRust b))), .unit)
      | _ => .ok (s, .illTyped)
  | .toRust i =>
      match s.var i with
      | some (.cvec v) => .ok (s.set s.heap i (some (.rvec v.toRust)), .unit)
      -- `From<String> for rust::String`, `src/string/_mod.rs` lines 34-46
      | some (.cstr v) => .ok (s.set s.heap i (some (.rstr v.toRust)), .unit)
      | some (.cbs b) => .ok (s.set s.heap i (some (.rbs b.toRust)), .unit)
      -- `From<str_boxed> for rust::Box<str>`, `src/string/slice.rs` lines 94-105
      | some (.cbstr b) => .ok (s.set s.heap i (some (.rbstr b.toRust)), .unit)
      | some (.cb b) => .ok (s.set s.heap i (some (.rb b.toRust)), .unit)
      | _ => .ok (s, .illTyped)
  | .strToBoxC i =>
      match s.var i with
      -- `From<rust::String> for str_boxed`, `src/string/slice.rs` lines 30-39
      | some (.rstr v) => do
          let (h, b) ← v.intoBox E s.heap
          .ok (s.set h i (some (.cbstr (CBox.ofRust b))), .unit)
      | _ => .ok (s, .illTyped)
  | .boxCToStr i =>
      match s.var i with
      -- `From<str_boxed> for rust::String`, `src/string/slice.rs` lines 107-114
      | some (.cbstr b) => .ok (s.set s.heap i (some (.rstr b.toRust.intoVec)), .unit)
      | _ => .ok (s, .illTyped)
  | .clone i =>
      match s.var i with
      | some (.cvec v) => do
          let (h, v') ← v.clone E s.heap
          .ok (s.push h (.cvec v'), .unit)
      -- `Clone for String`, `src/string/_mod.rs` lines 115-122
      | some (.cstr v) => do
          let (h, v') ← v.clone E s.heap
          .ok (s.push h (.cstr v'), .unit)
      | some (.cbs b) => do
          let (h, b') ← b.clone E s.heap
          .ok (s.push h (.cbs b'), .unit)
      | some (.cb b) => do
          let (h, b') ← b.clone E s.heap
          .ok (s.push h (.cb b'), .unit)
      | _ => .ok (s, .illTyped)
  | .read i =>
      match s.var i with
      | some (.rvec v) => return (s, .contents (← readN E s.heap v.ptr v.len))
      | some (.cvec v) => return (s, .contents (← v.deref E s.heap))
      | some (.rstr v) => return (s, .contents (← readN E s.heap v.ptr v.len))
      -- `Deref for String`, `src/string/_mod.rs` lines 48-59
      | some (.cstr v) => return (s, .contents (← v.deref E s.heap))
      | some (.rbs b) => return (s, .contents (← readN E s.heap b.ptr b.len))
      | some (.cbs b) => return (s, .contents (← b.deref E s.heap))
      | some (.rbstr b) => return (s, .contents (← readN E s.heap b.ptr b.len))
      -- `Deref for str_boxed`, `src/string/slice.rs` lines 62-72
      | some (.cbstr b) => return (s, .contents (← b.deref E s.heap))
      | some (.rb b) => return (s, .contents (← readN E s.heap b.ptr 1))
      | some (.cb b) => return (s, .contents (← b.deref E s.heap))
      | none => .ok (s, .illTyped)
  | .capacity i =>
      match s.var i with
      | some (.rvec v) => .ok (s, .num (v.capacity E))
      | some (.rstr v) => .ok (s, .num (v.capacity E))
      | _ => .ok (s, .illTyped)
  | .write i k x =>
      -- `DerefMut`: `src/vec.rs` lines 119-131, `src/slice.rs` lines 232-243, `src/boxed.rs` 81-92
      let go (p : Option Nat) (len : Nat) : Except Fault (State α × Out α) :=
        if k < len then do
          let xs ← readN E s.heap p len
          let h ← writeAt E s.heap p k [x]
          .ok (⟨h, s.vars⟩, .dropped ((xs.drop k).take 1))
        else .ok (s, .oob)
      match s.var i with
      | some (.cvec v) => go v.ptr v.len
      | some (.cbs b) => go b.ptr b.len
      | some (.cb b) => go b.ptr 1
      | _ => .ok (s, .illTyped)
  | .edit i e =>
      match s.var i with
      | some (.rvec v) => do
          let (s', v', o) ← editLocal E false i s v e
          .ok (s'.set s'.heap i (some (.rvec v')), .edited o)
      | some (.rstr v) => do
          let (s', v', o) ← editLocal E true i s v e
          .ok (s'.set s'.heap i (some (.rstr v')), .edited o)
      | _ => .ok (s, .illTyped)
  | .withMut i es panics =>
      match s.var i with
      | some (.cvec c) => do
          let (s', os, p) ← withRustMut E s i c .cvec (fun s v => do
            let (s', v', os) ← editsLocal E false i s v es
            .ok (s', v', os, panics))
          .ok (s', .closure os p)
      | some (.cstr c) => do
          let (s', os, p) ← withRustMut E s i c .cstr (fun s v => do
            let (s', v', os) ← editsLocal E true i s v es
            .ok (s', v', os, panics))
          .ok (s', .closure os p)
      | _ => .ok (s, .illTyped)
  | .drop i =>
      let fin (r : Except Fault (Heap α × List α)) : Except Fault (State α × Out α) := do
        let (h, xs) ← r
        .ok (s.set h i none, .dropped xs)
      match s.var i with
      | some (.rvec v) => fin (v.drop E s.heap)
      | some (.cvec v) => fin (v.drop E s.heap)
      | some (.rstr v) => fin (v.drop E s.heap)
      | some (.cstr v) => fin (v.drop E s.heap)
      | some (.rbs b) => fin (b.drop E s.heap)
      | some (.cbs b) => fin (b.drop E s.heap)
      | some (.rbstr b) => fin (b.drop E s.heap)
      | some (.cbstr b) => fin (b.drop E s.heap)
      | some (.rb b) => fin (b.drop E s.heap)
      | some (.cb b) => fin (b.drop E s.heap)
      | none => .ok (s, .illTyped)

/-- Not in the code: a program is a sequence of operations. -/
def run (s : State α) : List (Op α) → Except Fault (State α × List (Out α))
  | [] => .ok (s, [])
  | op :: ops => do
      let (s1, o) ← step E s op
      let (s2, os) ← run s1 ops
      .ok (s2, o :: os)
end

end Verif.Owned
