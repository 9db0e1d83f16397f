import Verif.CharP.Hist

/-!
# `SharedCStr`: a thin `Arc<CStr>`  (src/shared_cstr.rs)

Heap blocks hold an `ArcInner<CStr>`: its bytes (terminator included) and its strong count. Operations on
the count are atomic (`Arc`), so a history is any interleaving of the operations of all threads.
-/
namespace Verif.CharP.Shared

/-- An `ArcInner<CStr>`; freed when `refs` is 0. (std) What `Arc::into_raw` at /repo/src/shared_cstr.rs:43 points
to. -/
structure Blk where
  data : Bytes
  refs : Nat
deriving DecidableEq, Repr

/-- All blocks ever allocated (std), see `Blk`. -/
abbrev Heap := List Blk

/-- Bytes at the start of block `i`. A dereference of the pointer: /repo/src/shared_cstr.rs:96, 113, 132. -/
def memAt (h : Heap) (i : Nat) : Except Fault Bytes :=
  match h[i]? with
  | some b => if 0 < b.refs then .ok b.data else .error .useAfterFree
  | none => .error .useAfterFree

/-- `CStr::from_ptr(ptr)`: bytes up to and including the first NUL. (std) /repo/src/shared_cstr.rs:96, 113, 132. -/
def cstrFromPtr (h : Heap) (i : Nat) : Except Fault Bytes := do
  let m ← memAt h i
  toBytesWithNull m

/-- Changing the strong count of the `Arc<CStr>` rebuilt by `Arc::from_raw` from the fat pointer (address
of block `i`, `len` bytes): the length must be that of the allocation. (std) /repo/src/shared_cstr.rs:97-98, 114-117. -/
def addRefs (h : Heap) (i len : Nat) (f : Nat → Nat) : Except Fault Heap :=
  match h[i]? with
  | some b => if 0 < b.refs ∧ b.data.length = len then .ok (h.set i { b with refs := f b.refs }) else .error .badFree
  | none => .error .badFree

/-- `From<Arc<CStr>> for SharedCStr`, /repo/src/shared_cstr.rs:33-46; the `Arc` points to block `i`. Panics
if not UTF-8, dropping the `Arc`. -/
def fromArc (h : Heap) (i : Nat) : Except Fault (Heap × R Nat) := do
  let m ← memAt h i
  if validUtf8 (m.take (m.length - 1)) then .ok (h, .ok i)
  else do
    let h' ← addRefs h i m.length (· - 1)
    .ok (h', .panic)

/-- `From<CString>`, `From<&CStr>`, /repo/src/shared_cstr.rs:63-85, for a C string with bytes `c` (no NUL): copies into a
new `Arc<CStr>`. -/
def fromCStr (h : Heap) (c : Bytes) : Except Fault (Heap × R Nat) :=
  fromArc (h ++ [⟨c ++ [0], 1⟩]) h.length

/-- `From<&str>`, /repo/src/shared_cstr.rs:48-61. `CString::new` fails on any NUL byte (the trailing one included). -/
def fromStr (h : Heap) (s : Bytes) : Except Fault (Heap × R Nat) :=
  if s.contains 0 then .ok (h, .panic) else fromCStr h s

/-- `Drop`, /repo/src/shared_cstr.rs:87-101. -/
def dropS (h : Heap) (i : Nat) : Except Fault Heap := do
  let c ← cstrFromPtr h i
  addRefs h i c.length (· - 1)

/-- `Clone`, /repo/src/shared_cstr.rs:103-119. `Arc::clone`, then `Self::from(arc)`. -/
def cloneS (h : Heap) (i : Nat) : Except Fault (Heap × R Nat) := do
  let c ← cstrFromPtr h i
  let h' ← addRefs h i c.length (· + 1)
  fromArc h' i

/-- `Deref`, /repo/src/shared_cstr.rs:121-137 (`unreachable_unchecked` if not UTF-8). -/
def derefS (h : Heap) (i : Nat) : Except Fault Bytes := do
  let c ← cstrFromPtr h i
  let d := c.take (c.length - 1)
  if validUtf8 d then .ok d else .error .badUtf8

/-- Live variables: `SharedCStr`s and the user's own `Arc<CStr>`s, all pointing to blocks. Not in the
code: the variables of a program that uses /repo/src/shared_cstr.rs. -/
structure State where
  heap : Heap
  shared : List (Option Nat)
  arcs : List (Option Nat)
deriving DecidableEq, Repr

/-- A program before its first operation (not in the code). -/
def State.init : State := ⟨[], [], []⟩

/-- The trait functions of /repo/src/shared_cstr.rs:33-148, and what a program does with `Arc<CStr>`. -/
inductive Op
  | fromStr (cs : List Char)      -- `SharedCStr::from(&str)`
  | fromCString (c : Bytes)       -- from a `CString` / `&CStr` (no NUL in it)
  | arcNew (c : Bytes)            -- user code: an `Arc<CStr>`
  | arcClone (j : Nat)            -- user code
  | arcDrop (j : Nat)             -- user code
  | fromArc (j : Nat)             -- `SharedCStr::from(Arc<CStr>)`, moving the `Arc`
  | clone (i : Nat)
  | drop (i : Nat)
  | deref (i : Nat)
deriving DecidableEq, Repr

/-- What the program observes: the results of the functions of /repo/src/shared_cstr.rs:33-148. -/
inductive Out
  | shared (i : Nat) | arc (j : Nat) | str (d : Bytes) | unit | panic | illTyped
deriving DecidableEq, Repr

/-- One operation; the functions called carry the citations. -/
def step (s : State) : Op → Except Fault (State × Out)
  | .fromStr cs => do
    match ← Shared.fromStr s.heap (cs.flatMap String.utf8EncodeChar) with
    | (h, .ok p) => .ok ({ s with heap := h, shared := s.shared ++ [some p] }, .shared s.shared.length)
    | (h, .panic) => .ok ({ s with heap := h }, .panic)
  | .fromCString c =>
    if c.contains 0 then .ok (s, .illTyped) else do
    match ← fromCStr s.heap c with
    | (h, .ok p) => .ok ({ s with heap := h, shared := s.shared ++ [some p] }, .shared s.shared.length)
    | (h, .panic) => .ok ({ s with heap := h }, .panic)
  | .arcNew c =>
    if c.contains 0 then .ok (s, .illTyped)
    else .ok ({ s with heap := s.heap ++ [⟨c ++ [0], 1⟩], arcs := s.arcs ++ [some s.heap.length] }, .arc s.arcs.length)
  | .arcClone j => match (s.arcs[j]?).join with
    | none => .ok (s, .illTyped)
    | some p => do
      let m ← memAt s.heap p
      let h ← addRefs s.heap p m.length (· + 1)
      .ok ({ s with heap := h, arcs := s.arcs ++ [some p] }, .arc s.arcs.length)
  | .arcDrop j => match (s.arcs[j]?).join with
    | none => .ok (s, .illTyped)
    | some p => do
      let m ← memAt s.heap p
      let h ← addRefs s.heap p m.length (· - 1)
      .ok ({ s with heap := h, arcs := s.arcs.set j none }, .unit)
  | .fromArc j => match (s.arcs[j]?).join with
    | none => .ok (s, .illTyped)
    | some p => do
      match ← Shared.fromArc s.heap p with
      | (h, .ok p) => .ok (⟨h, s.shared ++ [some p], s.arcs.set j none⟩, .shared s.shared.length)
      | (h, .panic) => .ok ({ s with heap := h, arcs := s.arcs.set j none }, .panic)
  | .clone i => match (s.shared[i]?).join with
    | none => .ok (s, .illTyped)
    | some p => do
      match ← cloneS s.heap p with
      | (h, .ok p) => .ok ({ s with heap := h, shared := s.shared ++ [some p] }, .shared s.shared.length)
      | (h, .panic) => .ok ({ s with heap := h }, .panic)
  | .drop i => match (s.shared[i]?).join with
    | none => .ok (s, .illTyped)
    | some p => do
      let h ← dropS s.heap p
      .ok ({ s with heap := h, shared := s.shared.set i none }, .unit)
  | .deref i => match (s.shared[i]?).join with
    | none => .ok (s, .illTyped)
    | some p => do
      let d ← derefS s.heap p
      .ok (s, .str d)

/-- Not in the code: any interleaving of the calls of /repo/src/shared_cstr.rs by the threads of a program. -/
def run (s : State) : List Op → Except Fault (State × List Out)
  | [] => .ok (s, [])
  | o :: os => do
    let (s1, x) ← step s o
    let (s2, xs) ← run s1 os
    .ok (s2, x :: xs)

end Verif.CharP.Shared
