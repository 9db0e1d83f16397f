/-!
# Model of `src/bytes.rs`

`Bytes` is modelled as its raw in-memory image: the `5 * w` bytes of the `#[repr(C)]` struct
(`w = size_of::<usize>()`), with the target's byte order. Out-of-line values point into a heap of
allocations with numeric addresses; reference counts, released storage and ended borrows are
explicit, so that reading or releasing dead storage is a `Fault`.

Panics are outcomes (`Out.panic`); unwinding drops what Rust would drop.
-/
namespace Verif.Bytes

/-- `u8`, the element type of /repo/src/bytes.rs:24-41. -/
abbrev Byte := UInt8

/-- What the code depends on from the compilation target and profile.
`w` = `size_of::<usize>()`; `little` = `cfg!(target_endian = "little")` (/repo/src/bytes.rs:64);
`ovf` = overflow checks enabled (debug profile). -/
structure Target where
  w : Nat
  little : Bool
  ovf : Bool
  w_lo : 2 ≤ w
  w_hi : w ≤ 25

/-! ## Words -/

/-- Little-endian image of `n` on `k` bytes (the in-memory representation of a `usize` or pointer).
Language semantics, needed because /repo/src/bytes.rs:83-90 and 197-211 reinterpret the struct as bytes. -/
def leBytes : Nat → Nat → List Byte
  | 0, _ => []
  | k + 1, n => UInt8.ofNat (n % 256) :: leBytes k (n / 256)

/-- Value of a little-endian image. Language semantics (field reads of a reinterpreted struct,
/repo/src/bytes.rs:94-101). -/
def leVal : List Byte → Nat
  | [] => 0
  | b :: bs => b.toNat + 256 * leVal bs

/-- In-memory image of a machine word. Language semantics (/repo/src/bytes.rs:64 selects the byte order). -/
def enc (t : Target) (n : Nat) : List Byte :=
  if t.little then leBytes t.w n else (leBytes t.w n).reverse

/-- Value of a machine word read from memory. Language semantics (/repo/src/bytes.rs:64). -/
def dec (t : Target) (bs : List Byte) : Nat :=
  if t.little then leVal bs else leVal bs.reverse

/-- Number of values of a `usize`. `usize::MAX + 1`: language semantics, for `len`, `capacity` of
/repo/src/bytes.rs:24-41. -/
def wordMax (t : Target) : Nat := 256 ^ t.w

/-! ## The `Bytes` struct -/

/-- The memory of a `Bytes` (/repo/src/bytes.rs:24-41). Always `5 * w` long: `start`, `len`, `owner`,
`capacity`, `vtable` are one word each; the `PhantomData` marker takes no space. -/
abbrev Raw := List Byte

/-- The five fields, /repo/src/bytes.rs:24-41. -/
structure Fields where
  start : Nat
  len : Nat
  owner : Nat
  cap : Nat
  vt : Nat
deriving DecidableEq, Repr

/-- Memory image of the struct literal `Bytes { start, len, owner, capacity, vtable, marker }`. As built
at /repo/src/bytes.rs:119-128 (`from_raw_parts`), 364-371, 489-496, 509-519, 535-545. -/
def Fields.raw (t : Target) (f : Fields) : Raw :=
  enc t f.start ++ (enc t f.len ++ (enc t f.owner ++ (enc t f.cap ++ enc t f.vt)))

/-- Reading field number `i` (a word at offset `i * w`), whatever the memory holds. Field accesses such as /repo/src/bytes.rs:99, 235. -/
def getWord (t : Target) (r : Raw) (i : Nat) : Nat := dec t ((r.drop (i * t.w)).take t.w)

/-- Writing field number `i` in place. Field assignments: /repo/src/bytes.rs:241-242, 289-291. -/
def setWord (t : Target) (r : Raw) (i : Nat) (n : Nat) : Raw :=
  r.take (i * t.w) ++ (enc t n ++ r.drop ((i + 1) * t.w))

/-- All field reads at once: `self.start`, `self.len`, ... As read at /repo/src/bytes.rs:364-371, 716-735. -/
def fieldsOf (t : Target) (r : Raw) : Fields :=
  { start := getWord t r 0, len := getWord t r 1, owner := getWord t r 2,
    cap := getWord t r 3, vt := getWord t r 4 }

/-- `size_of::<Bytes>()`. The struct of /repo/src/bytes.rs:24-41. -/
def sizeOf (t : Target) : Nat := 5 * t.w

/-- `Bytes::MAX_INLINE_SIZE`, /repo/src/bytes.rs:77-82. -/
def maxInline (t : Target) : Nat := sizeOf t - (if t.little then t.w else 1)

/-- `read_inline_length_byte`, /repo/src/bytes.rs:83-90. (The image always has `5 * w` bytes, so the read is
in range; the default is never used.) -/
def lenByte (t : Target) (r : Raw) : Byte := (r[maxInline t]?).getD 0

/-- `is_inlined`, /repo/src/bytes.rs:91-93. -/
def isInlined (t : Target) (r : Raw) : Bool := (lenByte t r &&& 1) != 0

/-- `len()`, /repo/src/bytes.rs:301-307. -/
def lenOf (t : Target) (r : Raw) : Nat :=
  if isInlined t r then (lenByte t r).toNat >>> 1 else getWord t r 1

/-- `inline_unchecked`, /repo/src/bytes.rs:197-211: zeroed buffer, data copied at the front, length byte
written at `MAX_INLINE_SIZE`. -/
def inlineUnchecked (t : Target) (s : List Byte) : Raw :=
  let buffer := s ++ List.replicate (sizeOf t - s.length) 0
  buffer.set (maxInline t) ((1 : UInt8) ||| (UInt8.ofNat s.length <<< 1))

/-! ## Heap, vtables, state -/

/-- Provenance of a memory region. The sources of storage: /repo/src/bytes.rs:140-152 (static), 162-180 (borrowed),
486-498 (arc), 500-522 (arcT), 524-548 (box). -/
inductive Kind
  | static    -- `&'static [u8]`
  | borrowed  -- `&'a [u8]` owned by someone else, may end
  | arc       -- `Arc<[u8]>`
  | arcT      -- `Arc<T>`, `T: AsRef<[u8]>`
  | box       -- `Box<[u8]>`
deriving DecidableEq, Repr

/-- A memory region. `refs` is the strong count of an `Arc`, and 1/0 for valid/ended others. Released
regions stay in the table with `refs = 0` (addresses are never reused in the model, so that any later
access is detected). Models the allocator and `Arc`/`Box` of std, which /repo/src/bytes.rs:473-548 uses. -/
structure Alloc where
  base : Nat
  data : List Byte
  kind : Kind
  refs : Nat
deriving DecidableEq, Repr

/-- The possible function pointers in a `BytesVt`: `noop` (/repo/src/bytes.rs:62), `retain_arc_bytes`
(473-475), `release_arc_bytes` (477-479), `retain::<T>`/`release::<T>` (502-507),
`release_box_bytes` (526-530). -/
inductive Hook
  | noop | retainArc | releaseArc | retainArcT | releaseArcT | releaseBox
deriving DecidableEq, Repr

/-- `BytesVt`, /repo/src/bytes.rs:675-682. -/
structure Vt where
  retain : Option Hook
  release : Option Hook
deriving DecidableEq, Repr

/-- The vtable constants of the module. /repo/src/bytes.rs:141-144, 163-166, 481-484, 514-517, 540-543. -/
inductive VtKind
  | static | slice | arc | arcT | box
deriving DecidableEq, Repr

/-- Contents of the vtables: /repo/src/bytes.rs:141-144 (static), 163-166 (slice), 481-484 (arc),
514-517 (arcT), 540-543 (box). -/
def VtKind.vt : VtKind → Vt
  | .static => ⟨some .noop, some .noop⟩
  | .slice => ⟨some .noop, none⟩
  | .arc => ⟨some .retainArc, some .releaseArc⟩
  | .arcT => ⟨some .retainArcT, some .releaseArcT⟩
  | .box => ⟨none, some .releaseBox⟩

/-- `BytesVt::is_borrowed`, /repo/src/bytes.rs:684-686. -/
def Vt.isBorrowed (v : Vt) : Bool := v.release.isNone

/-- Where the linker placed the vtables: distinct, even (they hold pointers, so are aligned), non-null
word-sized addresses. Models the address of the `static`s of /repo/src/bytes.rs:141-144, 163-166, 481-484, 514-517,
540-543; `BytesVt` is aligned as the function pointers of /repo/src/bytes.rs:675-682. -/
structure Env extends Target where
  vtAddr : VtKind → Nat
  vt_inj : ∀ a b, vtAddr a = vtAddr b → a = b
  vt_even : ∀ a, vtAddr a % 2 = 0
  vt_pos : ∀ a, 0 < vtAddr a
  vt_lt : ∀ a, vtAddr a < 256 ^ w

/-- Dereferencing a vtable pointer. The dereference of `self.vtable`, /repo/src/bytes.rs:94-101. -/
def Env.vtAt (e : Env) (addr : Nat) : Option VtKind :=
  [VtKind.static, .slice, .arc, .arcT, .box].find? (fun k => e.vtAddr k == addr)

/-- Undefined behaviour that the model detects. Reached by the `unsafe` code of /repo/src/bytes.rs:94-101, 310-316,
473-479, 502-507, 526-530 when its invariants do not hold. -/
inductive Fault
  | useAfterFree   -- reading released storage or outside of any allocation
  | badRelease     -- releasing dead storage, or with the wrong size
  | badRetain      -- retaining dead storage
  | badVtable      -- dereferencing something that is not a vtable
deriving DecidableEq, Repr

/-- A live `Bytes<'lt>` variable. `lt` is the ghost lifetime parameter given by the type system: `none` is
`'static`, `some b` is the borrow of the region at address `b`. The type parameter of /repo/src/bytes.rs:24. -/
structure Handle where
  raw : Raw
  lt : Option Nat
deriving DecidableEq, Repr

/-- Program state. `handles` and `arcs` are the live variables of type `Bytes` and `Arc<[u8]>` (a
moved-out or dropped variable is `none`); `arcs` hold the address of the allocation. `allocs` counts calls
to the allocator. Not in the code: the variables of a program that uses /repo/src/bytes.rs. -/
structure State where
  heap : List Alloc
  next : Nat
  allocs : Nat
  handles : List (Option Handle)
  arcs : List (Option Nat)
deriving DecidableEq, Repr

/-- A program before its first operation (not in the code). -/
def State.init : State := { heap := [], next := 16, allocs := 0, handles := [], arcs := [] }

/-- Region lookup by base address. Models the allocator (std), see `Alloc`; used for the calls of
/repo/src/bytes.rs:473-479, 502-507, 526-530. -/
def findBase (h : List Alloc) (b : Nat) : Option Alloc := h.find? (fun a => a.base == b)

/-- Change the strong count of the region at `b`. `Arc::increment_strong_count`/`decrement_strong_count`
(std), as called at /repo/src/bytes.rs:473-479, 502-507. -/
def setRefs (h : List Alloc) (b : Nat) (n : Nat) : List Alloc :=
  h.map (fun a => if a.base = b then { a with refs := n } else a)

/-- `slice::from_raw_parts(start, len)` followed by a read of all its bytes (/repo/src/bytes.rs:312, 314).
Empty slices may dangle. -/
def readMem (h : List Alloc) (start len : Nat) : Except Fault (List Byte) :=
  if len = 0 then .ok [] else
  match h.find? (fun a => decide (0 < a.refs ∧ a.base ≤ start ∧ start + len ≤ a.base + a.data.length)) with
  | some a => .ok ((a.data.drop (start - a.base)).take len)
  | none => .error .useAfterFree

/-- `as_slice`, /repo/src/bytes.rs:310-316. -/
def asSlice (t : Target) (h : List Alloc) (r : Raw) : Except Fault (List Byte) :=
  if isInlined t r then .ok (r.take (lenOf t r)) else readMem h (getWord t r 0) (getWord t r 1)

/-- `vtable()`, /repo/src/bytes.rs:94-101 (`None` if inlined). -/
def vtableOf (e : Env) (r : Raw) : Except Fault (Option Vt) :=
  if isInlined e.toTarget r then .ok none
  else match e.vtAt (getWord e.toTarget r 4) with
    | some k => .ok (some k.vt)
    | none => .error .badVtable

/-- Calling a function pointer of a vtable with `(owner, capacity)`. `Arc::{in,de}crement_strong_count`
and `Box::from_raw` rebuild the slice from `capacity`, so a wrong capacity is a bad release. An empty
`Box<[u8]>` is dangling and owns no storage. The functions called are /repo/src/bytes.rs:62, 473-475, 477-479,
502-507, 526-530; the calls, /repo/src/bytes.rs:363, 702. -/
def callHook (h : List Alloc) (f : Hook) (owner cap : Nat) : Except Fault (List Alloc) :=
  match f with
  | .noop => .ok h
  | .retainArc => match findBase h owner with
    | some a => if 0 < a.refs ∧ a.kind = .arc ∧ a.data.length = cap
        then .ok (setRefs h owner (a.refs + 1)) else .error .badRetain
    | none => .error .badRetain
  | .retainArcT => match findBase h owner with
    | some a => if 0 < a.refs ∧ a.kind = .arcT
        then .ok (setRefs h owner (a.refs + 1)) else .error .badRetain
    | none => .error .badRetain
  | .releaseArc => match findBase h owner with
    | some a => if 0 < a.refs ∧ a.kind = .arc ∧ a.data.length = cap
        then .ok (setRefs h owner (a.refs - 1)) else .error .badRelease
    | none => .error .badRelease
  | .releaseArcT => match findBase h owner with
    | some a => if 0 < a.refs ∧ a.kind = .arcT
        then .ok (setRefs h owner (a.refs - 1)) else .error .badRelease
    | none => .error .badRelease
  | .releaseBox => if cap = 0 then .ok h else match findBase h owner with
    | some a => if 0 < a.refs ∧ a.kind = .box ∧ a.data.length = cap
        then .ok (setRefs h owner (a.refs - 1)) else .error .badRelease
    | none => .error .badRelease

/-- `Drop for Bytes`, /repo/src/bytes.rs:699-705. -/
def dropRaw (e : Env) (h : List Alloc) (r : Raw) : Except Fault (List Alloc) := do
  match ← vtableOf e r with
  | some vt => match vt.release with
    | some f => callHook h f (getWord e.toTarget r 2) (getWord e.toTarget r 3)
    | none => .ok h
  | none => .ok h

/-- Fresh region. `none`: the address space is exhausted (the program aborts). Models memory that a
program has (std): the arguments of /repo/src/bytes.rs:140, 162. -/
def newRegion (t : Target) (s : State) (data : List Byte) (k : Kind) : Option (State × Nat) :=
  if s.next + data.length + 2 * t.w < wordMax t then
    some ({ s with heap := s.heap ++ [{ base := s.next, data := data, kind := k, refs := 1 }],
                   next := s.next + data.length + 2 * t.w }, s.next)
  else none

/-- Heap allocation (counted). Models the allocator (std): the `Arc` of /repo/src/bytes.rs:322-332 and the arguments
of /repo/src/bytes.rs:487, 501, 525. -/
def allocate (t : Target) (s : State) (data : List Byte) (k : Kind) : Option (State × Nat) :=
  (newRegion t s data k).map (fun (s', b) => ({ s' with allocs := s'.allocs + 1 }, b))

/-- `From<Arc<[u8]>>`, /repo/src/bytes.rs:486-498, for the allocation at `b` holding `len` bytes. -/
def fromArcRaw (e : Env) (b len : Nat) : Raw :=
  Fields.raw e.toTarget { start := b, len := len, owner := b, cap := len, vt := e.vtAddr .arc }

/-- `copied_from_slice`, /repo/src/bytes.rs:322-332 (without `stabby`): inline, or a new `Arc<[u8]>`.
`none`: out of memory. -/
def copiedFromSlice (e : Env) (s : State) (data : List Byte) : Option (State × Raw) :=
  if data.length ≤ maxInline e.toTarget then some (s, inlineUnchecked e.toTarget data)
  else (allocate e.toTarget s data .arc).map (fun (s', b) => (s', fromArcRaw e b data.length))

/-- `noalloc_clone`, /repo/src/bytes.rs:357-372. -/
def noallocClone (e : Env) (h : List Alloc) (r : Raw) : Except Fault (Option (List Alloc × Raw)) := do
  match ← vtableOf e r with
  | none => .ok (some (h, r))
  | some vt => match vt.retain with
    | none => .ok none
    | some f => do
      let f5 := fieldsOf e.toTarget r
      let h' ← callHook h f f5.owner f5.cap
      .ok (some (h', f5.raw e.toTarget))

/-- `Clone for Bytes`, /repo/src/bytes.rs:693-698. `none`: out of memory. -/
def cloneRaw (e : Env) (s : State) (r : Raw) : Except Fault (Option (State × Raw)) := do
  match ← noallocClone e s.heap r with
  | some (h', r') => .ok (some ({ s with heap := h' }, r'))
  | none => do
    let data ← asSlice e.toTarget s.heap r
    .ok (copiedFromSlice e s data)

/-- A range bound, `core::ops::Bound<usize>`. (std) The bounds matched at /repo/src/bytes.rs:224-233. -/
inductive Bound
  | incl (i : Nat) | excl (i : Nat) | unb
deriving DecidableEq, Repr

/-- `*i + 1` on `usize`: panics (`none`) with overflow checks, wraps without. /repo/src/bytes.rs:226, 230. -/
def succWord (t : Target) (i : Nat) : Option Nat :=
  if i + 1 < wordMax t then some (i + 1) else if t.ovf then none else some 0

/-- Start bound, /repo/src/bytes.rs:224-228. -/
def startOf (t : Target) : Bound → Option Nat
  | .incl i => some i
  | .excl i => succWord t i
  | .unb => some 0

/-- End bound, /repo/src/bytes.rs:229-233. -/
def endOf (t : Target) (r : Raw) : Bound → Option Nat
  | .incl i => succWord t i
  | .excl i => some i
  | .unb => some (lenOf t r)

/-- Result of an operation that may panic. The panics are those of /repo/src/bytes.rs:234-235, and of the index of
line 239. -/
inductive R (α : Type)
  | ok (a : α) | panic
deriving DecidableEq, Repr

/-- `shrink_to`, /repo/src/bytes.rs:223-244. Note line 235: the comparison is with the raw field `self.len`.
On the inline branch the old value is dropped (released) by the assignment, line 239. Pointer
arithmetic of line 241 is modelled as wrapping. On panic nothing has been changed. -/
def shrinkTo (e : Env) (h : List Alloc) (r : Raw) (lo hi : Bound) :
    Except Fault (R (List Alloc × Raw)) := do
  let t := e.toTarget
  match startOf t lo, endOf t r hi with
  | some st, some en =>
    if ¬ st ≤ en then .ok .panic
    else if ¬ en ≤ getWord t r 1 then .ok .panic
    else
      let len := en - st
      if len ≤ maxInline t then do
        let data ← asSlice t h r
        -- `&self[start..end]` bounds check
        if ¬ en ≤ data.length then .ok .panic
        else do
          let new := inlineUnchecked t ((data.drop st).take len)
          let h' ← dropRaw e h r
          .ok (.ok (h', new))
      else
        let r1 := setWord t r 0 ((getWord t r 0 + st) % wordMax t)
        .ok (.ok (h, setWord t r1 1 len))
  | _, _ => .ok .panic

/-- `subsliced(mut self, range)`, /repo/src/bytes.rs:255-258. On panic `self` is dropped by unwinding:
the returned heap of the panic case. -/
def subsliced (e : Env) (h : List Alloc) (r : Raw) (lo hi : Bound) :
    Except Fault (List Alloc × Option Raw) := do
  match ← shrinkTo e h r lo hi with
  | .ok (h', r') => .ok (h', some r')
  | .panic => do
    let h' ← dropRaw e h r
    .ok (h', none)

/-- Result of `split_at`. /repo/src/bytes.rs:275: `Ok((left, right))`, `Err(self)`. -/
inductive Split
  | ok (l r : Raw) | err | panic | oom
deriving DecidableEq, Repr

/-- `split_at(self, index)`, /repo/src/bytes.rs:275-298. -/
def splitAt (e : Env) (s : State) (r : Raw) (index : Nat) : Except Fault (State × Split) := do
  let t := e.toTarget
  if index ≤ lenOf t r then
    if index ≤ maxInline t then do
      let data ← asSlice t s.heap r
      let left := inlineUnchecked t (data.take index)
      match ← subsliced e s.heap r (.incl index) .unb with
      | (h', some right) => .ok ({ s with heap := h' }, .ok left right)
      | (h', none) => .ok ({ s with heap := h' }, .panic)
    else if lenOf t r - index ≤ maxInline t then do
      let data ← asSlice t s.heap r
      let right := inlineUnchecked t (data.drop index)
      match ← subsliced e s.heap r .unb (.excl index) with
      | (h', some left) => .ok ({ s with heap := h' }, .ok left right)
      | (h', none) => .ok ({ s with heap := h' }, .panic)
    else do
      match ← cloneRaw e s r with
      | none => .ok (s, .oom)
      | some (s1, left) =>
        match ← cloneRaw e s1 left with
        | none => .ok (s, .oom)
        | some (s2, right) => do
          let left' := setWord t left 1 index
          let right1 := setWord t right 1 (getWord t right 1 - index)
          let right2 := setWord t right1 0 ((getWord t right1 0 + index) % wordMax t)
          -- `self` goes out of scope
          let h' ← dropRaw e s2.heap r
          .ok ({ s2 with heap := h' }, .ok left' right2)
  else .ok (s, .err)

/-- `upgrade`, /repo/src/bytes.rs:338-343. `none`: out of memory. The copied-from value is then dropped. -/
def upgrade (e : Env) (s : State) (r : Raw) : Except Fault (Option (State × Raw)) := do
  match ← vtableOf e r with
  | none => .ok (some (s, r))
  | some vt =>
    if ¬ vt.isBorrowed then .ok (some (s, r))
    else do
      let data ← asSlice e.toTarget s.heap r
      match copiedFromSlice e s data with
      | none => .ok none
      | some (s', r') => do
        let h' ← dropRaw e s'.heap r
        .ok (some ({ s' with heap := h' }, r'))

/-- `noalloc_upgrade`, /repo/src/bytes.rs:348-354. `some`: typed `'static`; `none` stands for `Err(self)`.
On the inlining path `self` is dropped. -/
def noallocUpgrade (e : Env) (h : List Alloc) (r : Raw) : Except Fault (Option (List Alloc × Raw)) := do
  let t := e.toTarget
  let cond : Bool := match ← vtableOf e r with   -- `vtable().map_or(true, |vt| !vt.is_borrowed())`
    | none => true
    | some vt => ! vt.isBorrowed
  if ! cond then .ok (some (h, r))
  else do
    let data ← asSlice t h r
    if data.length ≤ maxInline t then do
      let h' ← dropRaw e h r
      .ok (some (h', inlineUnchecked t data))
    else .ok none

/-- `upgrade_will_allocate`, /repo/src/bytes.rs:375-380. -/
def upgradeWillAllocate (e : Env) (r : Raw) : Except Fault Bool := do
  match ← vtableOf e r with
  | some vt => .ok (vt.isBorrowed && decide (sizeOf e.toTarget ≤ lenOf e.toTarget r))
  | none => .ok false

/-- `clone_will_allocate`, /repo/src/bytes.rs:383-388. -/
def cloneWillAllocate (e : Env) (r : Raw) : Except Fault Bool := do
  match ← vtableOf e r with
  | some vt => .ok (vt.retain.isNone && decide (sizeOf e.toTarget ≤ lenOf e.toTarget r))
  | none => .ok false

/-- `TryFrom<Bytes> for Arc<[u8]>`, /repo/src/bytes.rs:716-735: `some b`: the `Arc` at `b`, its count taken over from the
`Bytes`; `none`: `Err(value)`. The vtable comparison (line 723) is by address. -/
def tryIntoArc (e : Env) (r : Raw) : Option Nat :=
  let f := fieldsOf e.toTarget r
  if isInlined e.toTarget r then none
  else if f.vt = e.vtAddr .arc ∧ f.start = f.owner ∧ f.len = f.cap then some f.owner else none

/-- `io::Read::read` with a buffer of `n` bytes, /repo/src/bytes.rs:447-455. -/
def readInto (e : Env) (h : List Alloc) (r : Raw) (n : Nat) :
    Except Fault (R (List Alloc × Raw × List Byte)) := do
  let t := e.toTarget
  let data ← asSlice t h r
  let len := min (lenOf t r) n
  if ¬ len ≤ data.length then .ok .panic
  else
    let got := data.take len
    match ← shrinkTo e h r (.incl len) .unb with
    | .ok (h', r') => .ok (.ok (h', r', got))
    | .panic => .ok .panic

/-- `<[u8]>::cmp`, the comparison `Ord`/`PartialOrd` delegate to (/repo/src/bytes.rs:436-445). -/
def cmpSlice : List Byte → List Byte → Ordering
  | [], [] => .eq
  | [], _ :: _ => .lt
  | _ :: _, [] => .gt
  | a :: as, b :: bs => if a < b then .lt else if b < a then .gt else cmpSlice as bs

/-- `PartialEq for Bytes`, /repo/src/bytes.rs:430-434. -/
def eqBytes (t : Target) (h : List Alloc) (r1 r2 : Raw) : Except Fault Bool := do
  let a ← asSlice t h r1
  let b ← asSlice t h r2
  .ok (a == b)

/-- `Ord`/`PartialOrd for Bytes`, /repo/src/bytes.rs:436-445. -/
def cmpBytes (t : Target) (h : List Alloc) (r1 r2 : Raw) : Except Fault Ordering := do
  let a ← asSlice t h r1
  let b ← asSlice t h r2
  .ok (cmpSlice a b)

/-- What `Hash for Bytes` (/repo/src/bytes.rs:425-429) feeds to the hasher: what `<[u8] as Hash>` feeds for
the slice, i.e. its length and its bytes. -/
def hashFeed (t : Target) (h : List Alloc) (r : Raw) : Except Fault (Nat × List Byte) := do
  let a ← asSlice t h r
  .ok (a.length, a)

/-! ## Histories -/

/-- The operations of the public API. `i`, `j` index live variables. /repo/src/bytes.rs:70, 140, 162, 187, 223, 255,
275, 310, 322, 338, 348, 357, 391-395, 449, 457-471, 486, 500, 524, 550, 693, 699, 716; the moves of a
program around them. -/
inductive Op
  | fromStatic (data : List Byte)            -- from_static, From<&'static _>, empty, default
  | fromSlice (data : List Byte)             -- from_slice on a freshly borrowed buffer
  | inlineSlice (data : List Byte)
  | copied (data : List Byte)                -- copied_from_slice
  | arcNew (data : List Byte)                -- user code: Arc::<[u8]>::from
  | arcClone (j : Nat)                       -- user code
  | arcDrop (j : Nat)                        -- user code
  | fromArc (j : Nat)                        -- From<Arc<[u8]>>
  | fromArcT (data : List Byte)              -- From<Arc<T>> of a fresh Arc
  | fromBox (data : List Byte)               -- From<Box<[u8]>>, From<Vec<u8>>
  | clone (i : Nat)
  | noallocClone (i : Nat)
  | drop (i : Nat)
  | shrinkTo (i : Nat) (lo hi : Bound)
  | subsliced (i : Nat) (lo hi : Bound)
  | splitAt (i : Nat) (index : Nat)
  | upgrade (i : Nat)
  | noallocUpgrade (i : Nat)
  | tryIntoArc (i : Nat)
  | read (i : Nat) (n : Nat)
  | asSlice (i : Nat)
  | endBorrow (b : Nat)                      -- the borrow of the region at `b` ends
deriving DecidableEq, Repr

/-- What the program observes. The return types of the functions listed at `Op`. -/
inductive Out
  | bytes (i : Nat)            -- a new `Bytes` variable
  | bytes2 (i j : Nat)         -- two of them
  | arc (j : Nat)              -- a new `Arc` variable
  | data (d : List Byte)       -- bytes read
  | unit
  | none_                      -- `None`
  | err                        -- `Err(self)`: the variable is still there
  | panic
  | oom                        -- allocation failure: the program aborts
  | illTyped                   -- rejected by the compiler (moved variable, live borrow)
deriving DecidableEq, Repr

/-- New `Bytes` variable. A `let` of the program (not in the code). -/
def State.push (s : State) (h : Handle) : State × Out :=
  ({ s with handles := s.handles ++ [some h] }, .bytes s.handles.length)

/-- Replace variable `i`. An assignment or a move of the program (not in the code). -/
def State.put (s : State) (i : Nat) (h : Option Handle) : State :=
  { s with handles := s.handles.set i h }

/-- The variable number `i`, unless it was moved (not in the code). -/
def State.handle (s : State) (i : Nat) : Option Handle := (s.handles[i]?).join
/-- The `Arc` variable number `j`, unless it was moved (not in the code). -/
def State.arcAt (s : State) (j : Nat) : Option Nat := (s.arcs[j]?).join

/-- `From<Box<[u8]>>`, /repo/src/bytes.rs:524-548: a fresh `Box` (nothing allocated if empty: dangling
address 1), then moved into `Bytes`. -/
def fromBox (e : Env) (s : State) (data : List Byte) : Option (State × Raw) :=
  if data.length = 0 then
    some (s, Fields.raw e.toTarget { start := 1, len := 0, owner := 1, cap := 0, vt := e.vtAddr .box })
  else (allocate e.toTarget s data .box).map (fun (s', b) =>
    (s', Fields.raw e.toTarget { start := b, len := data.length, owner := b, cap := data.length, vt := e.vtAddr .box }))

/-- One operation. The citations are at each case and at the functions called. -/
def step (e : Env) (s : State) : Op → Except Fault (State × Out)
  | .fromStatic data =>   -- /repo/src/bytes.rs:140-146
    match newRegion e.toTarget s data .static with
    | none => .ok (s, .oom)
    | some (s', b) => .ok (s'.push ⟨Fields.raw e.toTarget
        { start := b, len := data.length, owner := b, cap := data.length, vt := e.vtAddr .static }, none⟩)
  | .fromSlice data =>    -- /repo/src/bytes.rs:162-172
    match newRegion e.toTarget s data .borrowed with
    | none => .ok (s, .oom)
    | some (s', b) =>
      if data.length ≤ maxInline e.toTarget then
        .ok (s'.push ⟨inlineUnchecked e.toTarget data, some b⟩)
      else .ok (s'.push ⟨Fields.raw e.toTarget
        { start := b, len := data.length, owner := b, cap := data.length, vt := e.vtAddr .slice }, some b⟩)
  | .inlineSlice data =>  -- /repo/src/bytes.rs:187-193
    if maxInline e.toTarget < data.length then .ok (s, .none_)
    else .ok (s.push ⟨inlineUnchecked e.toTarget data, none⟩)
  | .copied data =>
    match copiedFromSlice e s data with
    | none => .ok (s, .oom)
    | some (s', r) => .ok (s'.push ⟨r, none⟩)
  | .arcNew data =>
    match allocate e.toTarget s data .arc with
    | none => .ok (s, .oom)
    | some (s', b) => .ok ({ s' with arcs := s'.arcs ++ [some b] }, .arc s'.arcs.length)
  | .arcClone j =>
    match s.arcAt j with
    | none => .ok (s, .illTyped)
    | some b => match findBase s.heap b with
      | none => .error .badRetain
      | some a => if 0 < a.refs then
          .ok ({ s with heap := setRefs s.heap b (a.refs + 1), arcs := s.arcs ++ [some b] }, .arc s.arcs.length)
        else .error .badRetain
  | .arcDrop j =>
    match s.arcAt j with
    | none => .ok (s, .illTyped)
    | some b => match findBase s.heap b with
      | none => .error .badRelease
      | some a => if 0 < a.refs then
          .ok ({ s with heap := setRefs s.heap b (a.refs - 1), arcs := s.arcs.set j none }, .unit)
        else .error .badRelease
  | .fromArc j =>
    match s.arcAt j with
    | none => .ok (s, .illTyped)
    | some b => match findBase s.heap b with
      | none => .error .useAfterFree
      | some a =>
        .ok (State.push { s with arcs := s.arcs.set j none } ⟨fromArcRaw e b a.data.length, none⟩)
  | .fromArcT data =>     -- /repo/src/bytes.rs:500-522; simplification: the bytes are at the start of the `T` (C69 has any place)
    match allocate e.toTarget s data .arcT with
    | none => .ok (s, .oom)
    | some (s', b) => .ok (s'.push ⟨Fields.raw e.toTarget
        { start := b, len := data.length, owner := b, cap := data.length, vt := e.vtAddr .arcT }, none⟩)
  | .fromBox data =>
    match fromBox e s data with
    | none => .ok (s, .oom)
    | some (s', r) => .ok (s'.push ⟨r, none⟩)
  | .clone i =>
    match s.handle i with
    | none => .ok (s, .illTyped)
    | some h => do
      match ← cloneRaw e s h.raw with
      | none => .ok (s, .oom)
      | some (s', r) => .ok (s'.push ⟨r, h.lt⟩)
  | .noallocClone i =>
    match s.handle i with
    | none => .ok (s, .illTyped)
    | some h => do
      match ← noallocClone e s.heap h.raw with
      | none => .ok (s, .none_)
      | some (h', r) => .ok (State.push { s with heap := h' } ⟨r, h.lt⟩)
  | .drop i =>
    match s.handle i with
    | none => .ok (s, .illTyped)
    | some h => do
      let h' ← dropRaw e s.heap h.raw
      .ok ({ s with heap := h' }.put i none, .unit)
  | .shrinkTo i lo hi =>
    match s.handle i with
    | none => .ok (s, .illTyped)
    | some h => do
      match ← shrinkTo e s.heap h.raw lo hi with
      | .ok (h', r') => .ok ({ s with heap := h' }.put i (some ⟨r', h.lt⟩), .unit)
      | .panic => .ok (s, .panic)
  | .subsliced i lo hi =>
    match s.handle i with
    | none => .ok (s, .illTyped)
    | some h => do
      match ← subsliced e s.heap h.raw lo hi with
      | (h', some r') => .ok ({ s with heap := h' }.put i (some ⟨r', h.lt⟩), .unit)
      | (h', none) => .ok ({ s with heap := h' }.put i none, .panic)
  | .splitAt i index =>
    match s.handle i with
    | none => .ok (s, .illTyped)
    | some h => do
      match ← splitAt e s h.raw index with
      | (s', .ok l r) =>
        let s1 := s'.put i none
        .ok ({ s1 with handles := s1.handles ++ [some ⟨l, h.lt⟩, some ⟨r, h.lt⟩] },
             .bytes2 s1.handles.length (s1.handles.length + 1))
      | (s', .err) => .ok (s', .err)
      | (s', .panic) => .ok (s'.put i none, .panic)
      | (s', .oom) => .ok (s', .oom)
  | .upgrade i =>
    match s.handle i with
    | none => .ok (s, .illTyped)
    | some h => do
      match ← upgrade e s h.raw with
      | none => .ok (s, .oom)
      | some (s', r') => .ok (s'.put i (some ⟨r', none⟩), .unit)
  | .noallocUpgrade i =>
    match s.handle i with
    | none => .ok (s, .illTyped)
    | some h => do
      match ← noallocUpgrade e s.heap h.raw with
      | none => .ok (s, .err)
      | some (h', r') => .ok ({ s with heap := h' }.put i (some ⟨r', none⟩), .unit)
  | .tryIntoArc i =>
    match s.handle i with
    | none => .ok (s, .illTyped)
    | some h =>
      match tryIntoArc e h.raw with
      | none => .ok (s, .err)
      | some b => .ok ({ s.put i none with arcs := s.arcs ++ [some b] }, .arc s.arcs.length)
  | .read i n =>
    match s.handle i with
    | none => .ok (s, .illTyped)
    | some h => do
      match ← readInto e s.heap h.raw n with
      | .ok (h', r', got) => .ok ({ s with heap := h' }.put i (some ⟨r', h.lt⟩), .data got)
      | .panic => .ok (s, .panic)
  | .asSlice i =>
    match s.handle i with
    | none => .ok (s, .illTyped)
    | some h => do
      let d ← asSlice e.toTarget s.heap h.raw
      .ok (s, .data d)
  | .endBorrow b =>       -- allowed by the borrow checker only when no `Bytes<'b>` is live
    if s.handles.any (fun h => match h with | some h => h.lt == some b | none => false)
    then .ok (s, .illTyped)
    else match findBase s.heap b with
      | some a => if a.kind = .borrowed ∧ 0 < a.refs
          then .ok ({ s with heap := setRefs s.heap b 0 }, .unit) else .ok (s, .illTyped)
      | none => .ok (s, .illTyped)

/-- A whole history. Not in the code: a program, as a sequence of calls of the functions of /repo/src/bytes.rs. -/
def run (e : Env) (s : State) : List Op → Except Fault (State × List Out)
  | [] => .ok (s, [])
  | op :: ops => do
    let (s', o) ← step e s op
    let (s'', os) ← run e s' ops
    .ok (s'', o :: os)

end Verif.Bytes
