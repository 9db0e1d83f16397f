/-!
# C strings: `char_p::Ref`, `char_p::Box`, `c!()`  (src/char_p.rs, src/proc_macro/c_str.rs)

Text is a list of bytes. A pointer to text is modelled either by the memory it points to (the
bytes from the pointer to the end of its allocation; for `char_p::Ref`), or by the identity of a
heap block (for owned strings).
-/
namespace Verif.CharP

/-- `u8` (`NUL`, /repo/src/char_p.rs:24). -/
abbrev Byte := UInt8
/-- The memory from a pointer on, or a string: /repo/src/char_p.rs:18-21. -/
abbrev Bytes := List Byte

/-- UTF-8 validity test, `core::str::from_utf8(..).is_ok()`. (core) Called at /repo/src/char_p.rs:152, 648; assumed
at /repo/src/char_p.rs:229, 239, 599. -/
def validUtf8 (b : Bytes) : Bool := (ByteArray.mk b.toArray).validateUTF8

/-- Undefined behaviour detected by the model. The `unsafe` calls of /repo/src/char_p.rs:173-176, 189-239, 514-519,
582-587, 599. -/
inductive Fault
  | overread       -- reading past the end of an allocation
  | useAfterFree
  | badFree        -- freeing dead storage, static storage, or with the wrong size
  | badUtf8        -- `from_utf8_unchecked` on bytes which are not UTF-8
deriving DecidableEq, Repr

/-- `s.bytes().position(|b| b == NUL)` (/repo/src/char_p.rs:122, /repo/src/proc_macro/c_str.rs:20). -/
def position : Bytes → Option Nat
  | [] => none
  | b :: s => if b = 0 then some 0 else (position s).map (· + 1)

/-- `usize::checked_sub(1)`. (core) /repo/src/char_p.rs:120. -/
def checkedSub1 : Nat → Option Nat
  | 0 => none
  | n + 1 => some n

/-- `TryFrom<&str> for char_p_ref`, /repo/src/char_p.rs:109-131. `s` is the string and `rest` whatever follows
it in its allocation; the result is the memory pointed to. `char_p_ref::EMPTY` (/repo/src/char_p.rs:28-33) points
to a static NUL. -/
def refTryFrom (s rest : Bytes) : Except Unit Bytes :=
  match checkedSub1 s.length with
  | some lenMinusOne => if position s ≠ some lenMinusOne then .error () else .ok (s ++ rest)
  | none => .ok [0]

/-- Result of an operation that may panic. The panics are those of /repo/src/char_p.rs:152-153, 443-447, 648-649. -/
inductive R (α : Type)
  | ok (a : α) | panic
deriving DecidableEq, Repr

/-- `From<&CStr> for char_p_ref`, /repo/src/char_p.rs:143-160. A `CStr` is its bytes without the terminator
(no NUL in it); in memory it is followed by NUL and whatever follows. Panics if not UTF-8. -/
def refFromCStr (s rest : Bytes) : R Bytes :=
  if validUtf8 s then .ok (s ++ 0 :: rest) else .panic

/-- `bytes()`, /repo/src/char_p.rs:167-182: the iterator collected. Reads byte after byte until NUL. -/
def bytesOf : Bytes → Except Fault Bytes
  | [] => .error .overread
  | b :: m => if b = 0 then .ok [] else do
      let r ← bytesOf m
      .ok (b :: r)

/-- `bytes().count()`. /repo/src/char_p.rs:192, 205, 218. -/
def count (m : Bytes) : Except Fault Nat := do
  let b ← bytesOf m
  .ok b.length

/-- `slice::from_raw_parts(ptr, n)`, all its bytes. (core) /repo/src/char_p.rs:190-193, 203-206, 216-219. -/
def readN (m : Bytes) (n : Nat) : Except Fault Bytes :=
  if n ≤ m.length then .ok (m.take n) else .error .overread

/-- `to_bytes`, /repo/src/char_p.rs:197-208 (and `to_nonzero_bytes`, 184-195, same bytes). -/
def toBytes (m : Bytes) : Except Fault Bytes := do
  let n ← count m
  readN m n

/-- `to_bytes_with_null`, /repo/src/char_p.rs:210-221. -/
def toBytesWithNull (m : Bytes) : Except Fault Bytes := do
  let n ← count m
  readN m (n + 1)

/-- `to_str`, /repo/src/char_p.rs:223-231. -/
def toStr (m : Bytes) : Except Fault Bytes := do
  let b ← toBytes m
  if validUtf8 b then .ok b else .error .badUtf8

/-- `to_str_with_null`, /repo/src/char_p.rs:233-241. -/
def toStrWithNull (m : Bytes) : Except Fault Bytes := do
  let b ← toBytesWithNull m
  if validUtf8 b then .ok b else .error .badUtf8

/-- `PartialEq for char_p_ref`, /repo/src/char_p.rs:264-271. -/
def refEq (m1 m2 : Bytes) : Except Fault Bool := do
  let a ← toStr m1
  let b ← toStr m2
  .ok (a == b)

/-- `c!()` / `c!("...")`, /repo/src/proc_macro/c_str.rs:5-45. The argument is the value of the literal, if any; the result
is the static memory pointed to, or the index of the offending NUL (compile error).
The subtraction `bytes.len() - 1` (/repo/src/proc_macro/c_str.rs:27) would panic on an empty literal: `none`. -/
def cStr (input : Option Bytes) : Option (Except Nat Bytes) :=
  match input with
  | none => some (.ok [0])
  | some bytes =>
    match position bytes with
    | none => some (.ok (bytes ++ [0]))
    | some n =>
      match checkedSub1 bytes.length with
      | none => none
      | some l => if n = l then some (.ok bytes) else some (.error n)

/-! ## Owned strings: a heap of sized blocks -/

/-- A heap block; its size is the length of its data. Models the allocator (std), for the `Box<[u8]>` of
/repo/src/char_p.rs:495, 515, 583, 651 and the `String`s given and returned. -/
structure Block where
  data : Bytes
  live : Bool
deriving DecidableEq, Repr

/-- All blocks ever allocated (std), see `Block`. -/
abbrev Heap := List Block

/-- `char_p_boxed`: a thin pointer, either to `EMPTY_SENTINEL` (/repo/src/char_p.rs:468) or to a heap block. -/
inductive Ptr
  | sentinel | blk (i : Nat)
deriving DecidableEq, Repr

/-- A `String` or `Vec<u8>`: its block (`none`: dangling, nothing allocated) and length. Its capacity is
the size of its block. The argument of /repo/src/char_p.rs:473, the result of /repo/src/char_p.rs:574, 595. -/
structure Buf where
  blk : Option Nat
  len : Nat
  cap : Nat
deriving DecidableEq, Repr

/-- Allocate a block (never for size 0). Models the allocator (std), see `Block`. -/
def alloc (h : Heap) (data : Bytes) : Heap × Nat := (h ++ [⟨data, true⟩], h.length)

/-- The memory at the start of block `i`. A dereference of the pointer: /repo/src/char_p.rs:173. -/
def memAt (h : Heap) (i : Nat) : Except Fault Bytes :=
  match h[i]? with
  | some b => if b.live then .ok b.data else .error .useAfterFree
  | none => .error .useAfterFree

/-- Free block `i`, whose layout is claimed to have size `n`. Models the allocator (std): the drop of
/repo/src/char_p.rs:514-519. -/
def free (h : Heap) (i n : Nat) : Except Fault Heap :=
  match h[i]? with
  | some b => if b.live ∧ b.data.length = n then .ok (h.set i { b with live := false }) else .error .badFree
  | none => .error .badFree

/-- Memory pointed to by a boxed string. `as_ref`, /repo/src/char_p.rs:414-420. -/
def Ptr.mem (h : Heap) : Ptr → Except Fault Bytes
  | .sentinel => .ok [0]
  | .blk i => memAt h i

/-- Contents of a `String`/`Vec`. (std) `&*s` and `as_bytes`, /repo/src/char_p.rs:479, 487, 491. -/
def Buf.read (h : Heap) (v : Buf) : Except Fault Bytes :=
  match v.blk with
  | none => .ok []
  | some i => do
    let m ← memAt h i
    readN m v.len

/-- Dropping a `String`/`Vec` (frees with its capacity). (std) At /repo/src/char_p.rs:485 (a moved-in string that is
not stored) and in user code. -/
def Buf.drop (h : Heap) (v : Buf) : Except Fault Heap :=
  match v.blk with
  | none => .ok h
  | some i => free h i v.cap

/-- A new `String` with the given contents and spare capacity (garbage bytes). (std) The strings which
users pass to /repo/src/char_p.rs:473; `it.into()` of /repo/src/char_p.rs:442. -/
def Buf.mk' (h : Heap) (contents spare : Bytes) : Heap × Buf :=
  if contents.length + spare.length = 0 then (h, ⟨none, 0, 0⟩)
  else
    let (h', i) := alloc h (contents ++ spare)
    (h', ⟨some i, contents.length, contents.length + spare.length⟩)

/-- `realloc` of a non-dangling buffer to capacity `n`, keeping its first `len` bytes: new block, old one
freed with its capacity. Bytes after the contents are uninitialised (garbage: 0xAA). (std) Done by the
calls of /repo/src/char_p.rs:492, 495. -/
def Buf.realloc (h : Heap) (v : Buf) (n : Nat) : Except Fault (Heap × Buf) := do
  let c ← v.read h
  let h1 ← v.drop h
  let (h2, i) := alloc h1 (c ++ List.replicate (n - c.length) 0xAA)
  .ok (h2, ⟨some i, v.len, n⟩)

/-- `String::reserve_exact(1)`, used at /repo/src/char_p.rs:492. -/
def Buf.reserveExact1 (h : Heap) (v : Buf) : Except Fault (Heap × Buf) :=
  if v.len + 1 ≤ v.cap then .ok (h, v) else v.realloc h (v.len + 1)

/-- `String::push(NUL)`, used at /repo/src/char_p.rs:493, given capacity for it. -/
def Buf.pushNul (h : Heap) (v : Buf) : Except Fault (Heap × Buf) :=
  match v.blk with
  | none => .error .overread
  | some i => do
    let m ← memAt h i
    if v.len < m.length then .ok (h.set i ⟨m.set v.len 0, true⟩, { v with len := v.len + 1 })
    else .error .overread

/-- `String::into_boxed_str`, used at /repo/src/char_p.rs:495: shrinks the allocation to the length.
Result: the block of the box. Only called on non-empty strings. -/
def Buf.intoBoxed (h : Heap) (v : Buf) : Except Fault (Heap × Ptr) := do
  let (h', v') ← if v.len = v.cap then pure (h, v) else v.realloc h v.len
  match v'.blk with
  | some i => .ok (h', .blk i)
  | none => .error .overread

/-- `TryFrom<String> for char_p_boxed`, /repo/src/char_p.rs:470-504. On success the string has been consumed;
on error it is handed back. -/
def tryFromString (h : Heap) (s : Buf) : Except Fault (Heap × Except Buf Ptr) := do
  let c ← s.read h
  if c = [] ∨ c = [0] then do
    let h' ← s.drop h
    .ok (h', .ok .sentinel)
  else
    let lenMinusOne := s.len - 1
    if (c.take lenMinusOne).contains 0 then .ok (h, .error s)
    else do
      let (h1, s1) ← if c[lenMinusOne]? ≠ some 0 then do
            let (h1, s1) ← s.reserveExact1 h
            s1.pushNul h1
          else pure (h, s)
      let (h2, p) ← s1.intoBoxed h1
      .ok (h2, .ok p)

/-- `char_p::new` on a `String` (/repo/src/char_p.rs:345-351, 433-449): panics on error (the message shows the string,
which is then dropped by unwinding). -/
def boxNew (h : Heap) (s : Buf) : Except Fault (Heap × R Ptr) := do
  match ← tryFromString h s with
  | (h', .ok p) => .ok (h', .ok p)
  | (h', .error s') => do
    let h'' ← s'.drop h'
    .ok (h'', .panic)

/-- `From<CString> for char_p_boxed`, /repo/src/char_p.rs:643-662; the `CString` owns block `i`, whose bytes are
its contents and the NUL. Panics if not UTF-8 (and the `CString` is dropped). -/
def boxFromCString (h : Heap) (i : Nat) : Except Fault (Heap × R Ptr) := do
  let m ← memAt h i
  if validUtf8 (m.take (m.length - 1)) then .ok (h, .ok (.blk i))
  else do
    let h' ← free h i m.length
    .ok (h', .panic)

/-- `Drop for char_p_boxed`, /repo/src/char_p.rs:506-522. -/
def dropBox (h : Heap) (p : Ptr) : Except Fault Heap :=
  match p with
  | .sentinel => .ok h
  | .blk i => do
    let m ← memAt h i
    let b ← toBytesWithNull m
    free h i b.length

/-- `into_vec`, /repo/src/char_p.rs:573-592 (and `into_string`, 595-603: same buffer). `Vec::from(Box<[u8]>)` keeps the
allocation: capacity `num_bytes`; `pop` decrements the length. -/
def intoVec (h : Heap) (p : Ptr) : Except Fault Buf :=
  match p with
  | .sentinel => .ok ⟨none, 0, 0⟩
  | .blk i => do
    let m ← memAt h i
    let b ← toBytesWithNull m
    .ok ⟨some i, b.length - 1, b.length⟩

/-- `to_owned` / `Clone`, /repo/src/char_p.rs:255-259, 607-611, 631-635: `char_p::new(self.to_str())`, the `&str`
being copied into a `String` first. -/
def cloneBox (h : Heap) (p : Ptr) : Except Fault (Heap × R Ptr) := do
  let m ← p.mem h
  let c ← toStr m
  let (h', s) := Buf.mk' h c []
  boxNew h' s

/-! ## Histories -/

/-- Program state: heap, live variables of type `char_p::Box` and `String`/`Vec<u8>` (`none`: moved out or
dropped). Not in the code: the variables of a program that uses /repo/src/char_p.rs. -/
structure State where
  heap : Heap
  boxes : List (Option Ptr)
  bufs : List (Option Buf)
deriving DecidableEq, Repr

/-- A program before its first operation (not in the code). -/
def State.init : State := ⟨[], [], []⟩

/-- Operations of a program using owned C strings. /repo/src/char_p.rs:345, 473, 507, 527-571, 574, 595, 620, 631,
644, and what a program does with `String`s. -/
inductive Op
  | newString (cs : List Char) (spare : Bytes)  -- user code: a `String` with spare capacity
  | tryFrom (v : Nat)                           -- `char_p::Box::try_from(String)`
  | new (v : Nat)                               -- `char_p::new(String)`
  | fromCString (c : Bytes)                     -- `CString::new(c).unwrap()`, then `char_p::Box::from`
  | clone (i : Nat)
  | read (i : Nat)                              -- `to_bytes`, `bytes`
  | readStr (i : Nat)                           -- `to_str`
  | readNul (i : Nat)                           -- `to_bytes_with_null`
  | eq (i j : Nat)                              -- `==`
  | drop (i : Nat)
  | intoVec (i : Nat)                           -- `into_vec`, `into_string`
  | readBuf (v : Nat)
  | dropBuf (v : Nat)
deriving DecidableEq, Repr

/-- What the program observes. The results of the functions listed at `Op`. -/
inductive Out
  | box (i : Nat) | buf (v : Nat) | data (d : Bytes) | bool (b : Bool) | unit
  | err          -- `Err(InvalidNulTerminator(s))`, the string being kept
  | panic
  | illTyped     -- rejected by the compiler (moved variable), or a `CString` that cannot exist
deriving DecidableEq, Repr

/-- One operation. UTF-8 encoding of `newString` is Lean's `String.utf8EncodeChar`. The functions called
carry the citations. -/
def step (s : State) : Op → Except Fault (State × Out)
  | .newString cs spare =>
    let (h, v) := Buf.mk' s.heap (cs.flatMap String.utf8EncodeChar) spare
    .ok ({ s with heap := h, bufs := s.bufs ++ [some v] }, .buf s.bufs.length)
  | .tryFrom v => match (s.bufs[v]?).join with
    | none => .ok (s, .illTyped)
    | some b => do
      match ← tryFromString s.heap b with
      | (h, .ok p) => .ok (⟨h, s.boxes ++ [some p], s.bufs.set v none⟩, .box s.boxes.length)
      | (h, .error b') => .ok ({ s with heap := h, bufs := s.bufs.set v (some b') }, .err)
  | .new v => match (s.bufs[v]?).join with
    | none => .ok (s, .illTyped)
    | some b => do
      match ← boxNew s.heap b with
      | (h, .ok p) => .ok (⟨h, s.boxes ++ [some p], s.bufs.set v none⟩, .box s.boxes.length)
      | (h, .panic) => .ok ({ s with heap := h, bufs := s.bufs.set v none }, .panic)
  | .fromCString c =>
    if c.contains 0 then .ok (s, .illTyped)
    else do
      let (h, i) := alloc s.heap (c ++ [0])
      match ← boxFromCString h i with
      | (h, .ok p) => .ok ({ s with heap := h, boxes := s.boxes ++ [some p] }, .box s.boxes.length)
      | (h, .panic) => .ok ({ s with heap := h }, .panic)
  | .clone i => match (s.boxes[i]?).join with
    | none => .ok (s, .illTyped)
    | some p => do
      match ← cloneBox s.heap p with
      | (h, .ok p') => .ok ({ s with heap := h, boxes := s.boxes ++ [some p'] }, .box s.boxes.length)
      | (h, .panic) => .ok ({ s with heap := h }, .panic)
  | .read i => match (s.boxes[i]?).join with
    | none => .ok (s, .illTyped)
    | some p => do
      let m ← p.mem s.heap
      let d ← toBytes m
      .ok (s, .data d)
  | .readStr i => match (s.boxes[i]?).join with
    | none => .ok (s, .illTyped)
    | some p => do
      let m ← p.mem s.heap
      let d ← toStr m
      .ok (s, .data d)
  | .readNul i => match (s.boxes[i]?).join with
    | none => .ok (s, .illTyped)
    | some p => do
      let m ← p.mem s.heap
      let d ← toBytesWithNull m
      .ok (s, .data d)
  | .eq i j => match (s.boxes[i]?).join, (s.boxes[j]?).join with
    | some p, some q => do
      let m ← p.mem s.heap
      let n ← q.mem s.heap
      let b ← refEq m n
      .ok (s, .bool b)
    | _, _ => .ok (s, .illTyped)
  | .drop i => match (s.boxes[i]?).join with
    | none => .ok (s, .illTyped)
    | some p => do
      let h ← dropBox s.heap p
      .ok ({ s with heap := h, boxes := s.boxes.set i none }, .unit)
  | .intoVec i => match (s.boxes[i]?).join with
    | none => .ok (s, .illTyped)
    | some p => do
      let v ← intoVec s.heap p
      .ok ({ s with boxes := s.boxes.set i none, bufs := s.bufs ++ [some v] }, .buf s.bufs.length)
  | .readBuf v => match (s.bufs[v]?).join with
    | none => .ok (s, .illTyped)
    | some b => do
      let d ← b.read s.heap
      .ok (s, .data d)
  | .dropBuf v => match (s.bufs[v]?).join with
    | none => .ok (s, .illTyped)
    | some b => do
      let h ← b.drop s.heap
      .ok ({ s with heap := h, bufs := s.bufs.set v none }, .unit)

/-- A whole program, with everything it observes. Not in the code: a program as a sequence of calls of
/repo/src/char_p.rs. -/
def run (s : State) : List Op → Except Fault (State × List Out)
  | [] => .ok (s, [])
  | o :: os => do
    let (s1, x) ← step s o
    let (s2, xs) ← run s1 os
    .ok (s2, x :: xs)

end Verif.CharP
