import Verif.Bytes.Model
/-!
# `Bytes` over storage and vtables supplied by the user

`Bytes::from_raw_parts` (/repo/src/bytes.rs:113-129) takes a slice, an owner, a capacity and a vtable, and a SAFETY
contract (/repo/src/bytes.rs:103-112): the slice stays valid until `release(owner, capacity)` has been called once
more than `retain`. Here the functions of the vtables are arbitrary: what the model records is which of
them are called, with which arguments, when, and what is read in between. Memory is a map from addresses,
which its owner reuses as soon as the contract lets them.

The images of the values, the words and the ranges are those of `Verif.Bytes.Model`. The functions are
again those of /repo/src/bytes.rs, without `stabby`.
-/
namespace Verif.BytesVt
open Verif.Bytes (Byte Target Raw Fields Bound R Fault Split getWord setWord fieldsOf wordMax maxInline isInlined lenOf
  inlineUnchecked startOf endOf)

/-- Which functions a `BytesVt` has. /repo/src/bytes.rs:675-682. -/
structure Hooks where
  retain : Bool
  release : Bool
deriving DecidableEq, Repr

/-- The target, and the vtables of the program, by address: references to `BytesVt`, hence aligned and not
null. `arcVt` is that of `From<Arc<[u8]>>`, /repo/src/bytes.rs:481-484; `sliceVt`, that of `from_slice`,
/repo/src/bytes.rs:163-166. All the others are the user's, and those of /repo/src/bytes.rs:141-144, 514-517, 540-543. -/
structure Env extends Target where
  vts : Nat → Option Hooks
  vt_even : ∀ a v, vts a = some v → a % 2 = 0
  vt_lt : ∀ a v, vts a = some v → a < 256 ^ w
  arcVt : Nat
  arc_vt : vts arcVt = some ⟨true, true⟩
  sliceVt : Nat
  slice_vt : vts sliceVt = some ⟨true, false⟩

/-- A vtable, and the arguments of its functions: `retain(owner, capacity)`, `release(owner, capacity)`. The
fields of /repo/src/bytes.rs:24-41. -/
structure Own where
  vt : Nat
  owner : Nat
  cap : Nat
deriving DecidableEq, Repr

/-- What happens to the storage, in order. -/
inductive Ev
  /-- `from_raw_parts` with this slice: /repo/src/bytes.rs:113-129. The struct literals of /repo/src/bytes.rs:487-498, 509-519,
  535-545 have the same effect. -/
  | made (o : Own) (start len : Nat)
  /-- The call of /repo/src/bytes.rs:363. -/
  | retain (o : Own)
  /-- The call of /repo/src/bytes.rs:702. -/
  | release (o : Own)
  /-- The slice of /repo/src/bytes.rs:314 was read. -/
  | read (o : Own) (start len : Nat)
deriving DecidableEq, Repr

/-- Memory, and what has happened. Not in the code. -/
structure Mach where
  mem : Nat → Byte
  log : List Ev

/-- Add an event. Not in the code. -/
def Mach.ev (m : Mach) (x : Ev) : Mach := { m with log := m.log ++ [x] }

/-- Does the vtable have a `release`? The test of /repo/src/bytes.rs:684-686. -/
def Env.rel (e : Env) (o : Own) : Bool := match e.vts o.vt with | some h => h.release | none => false

/-- What an event adds to the number of calls of `release` that are due. Not in the code: the count of the
contract, /repo/src/bytes.rs:105-106. -/
def due1 (o : Own) : Ev → Int
  | .made o' _ _ => if o' = o then 1 else 0
  | .retain o' => if o' = o then 1 else 0
  | .release o' => if o' = o then -1 else 0
  | .read _ _ _ => 0

/-- The number of calls of `release` that are due: /repo/src/bytes.rs:105-106. -/
def due (o : Own) : List Ev → Int
  | [] => 0
  | x :: l => due1 o x + due o l

/-- Does the contract let the owner of the memory at `a` reuse it? Every slice that has been given and that
contains `a` was given with a `release`, which has been called as many times as it had to be: /repo/src/bytes.rs:105-106.
Simplification: the lifetime of a slice that was given without a `release` never ends; see
`Verif.Bytes.Model` for lifetimes that end. -/
def mayWrite (e : Env) (log : List Ev) (a : Nat) : Bool :=
  log.all fun
    | .made o st ln => !(decide (st ≤ a ∧ a < st + ln)) || (e.rel o && decide (due o log = 0))
    | _ => true

/-- (language) The bytes of a slice. -/
def readMem (mem : Nat → Byte) (start len : Nat) : List Byte := (List.range len).map fun i => mem (start + i)

/-- (language) Writing bytes. -/
def writeMem (mem : Nat → Byte) (start : Nat) (d : List Byte) : Nat → Byte :=
  fun a => if start ≤ a ∧ a < start + d.length then (d[a - start]?).getD 0 else mem a

/-- The vtable and the arguments of its functions: `self.vtable`, `self.owner`, `self.capacity`,
/repo/src/bytes.rs:24-41. -/
def ownOf (e : Env) (r : Raw) : Own :=
  ⟨getWord e.toTarget r 4, getWord e.toTarget r 2, getWord e.toTarget r 3⟩

/-- `as_slice`, /repo/src/bytes.rs:310-316, and reading all of it. -/
def asSlice (e : Env) (m : Mach) (r : Raw) : Mach × List Byte :=
  if isInlined e.toTarget r then (m, r.take (lenOf e.toTarget r))
  else (m.ev (.read (ownOf e r) (getWord e.toTarget r 0) (getWord e.toTarget r 1)),
    readMem m.mem (getWord e.toTarget r 0) (getWord e.toTarget r 1))

/-- `vtable()`, /repo/src/bytes.rs:94-101 (`None` if inlined). -/
def vtableOf (e : Env) (r : Raw) : Except Fault (Option Hooks) :=
  if isInlined e.toTarget r then .ok none
  else match e.vts (getWord e.toTarget r 4) with
    | some h => .ok (some h)
    | none => .error .badVtable

/-- `from_raw_parts`, /repo/src/bytes.rs:113-129. -/
def fromRawParts (e : Env) (m : Mach) (start len : Nat) (o : Own) : Mach × Raw :=
  (m.ev (.made o start len), Fields.raw e.toTarget ⟨start, len, o.owner, o.cap, o.vt⟩)

/-- `Drop for Bytes`, /repo/src/bytes.rs:699-705. -/
def dropRaw (e : Env) (m : Mach) (r : Raw) : Except Fault Mach := do
  match ← vtableOf e r with
  | some vt => if vt.release then .ok (m.ev (.release (ownOf e r))) else .ok m
  | none => .ok m

/-- A new `Arc<[u8]>` at address `a`, with this contents: /repo/src/bytes.rs:322-332, 486-498. The allocator (std)
gives memory that it may reuse. `none`: out of memory. -/
def newArc (e : Env) (m : Mach) (a : Nat) (d : List Byte) : Option (Mach × Raw) :=
  if a + d.length < wordMax e.toTarget ∧ (List.range d.length).all (fun i => mayWrite e m.log (a + i)) then
    some (fromRawParts e { m with mem := writeMem m.mem a d } a d.length ⟨e.arcVt, a, d.length⟩)
  else none

/-- `copied_from_slice`, /repo/src/bytes.rs:322-332: inline, or a new `Arc<[u8]>`, at the address `a`. -/
def copiedFromSlice (e : Env) (m : Mach) (a : Nat) (d : List Byte) : Option (Mach × Raw) :=
  if d.length ≤ maxInline e.toTarget then some (m, inlineUnchecked e.toTarget d) else newArc e m a d

/-- `noalloc_clone`, /repo/src/bytes.rs:357-372. -/
def noallocClone (e : Env) (m : Mach) (r : Raw) : Except Fault (Option (Mach × Raw)) := do
  match ← vtableOf e r with
  | none => .ok (some (m, r))
  | some vt =>
    if vt.retain then .ok (some (m.ev (.retain (ownOf e r)), (fieldsOf e.toTarget r).raw e.toTarget))
    else .ok none

/-- `Clone for Bytes`, /repo/src/bytes.rs:693-698; `a`: the address of the allocation, if any. `none`: out of memory. -/
def cloneRaw (e : Env) (m : Mach) (a : Nat) (r : Raw) : Except Fault (Option (Mach × Raw)) := do
  match ← noallocClone e m r with
  | some v => .ok (some v)
  | none =>
    let (m', d) := asSlice e m r
    .ok (copiedFromSlice e m' a d)

/-- The end of `shrink_to`, once the bounds are known: /repo/src/bytes.rs:234-243. -/
def shrinkBetween (e : Env) (m : Mach) (r : Raw) (st en : Nat) : Except Fault (R (Mach × Raw)) :=
  if ¬ st ≤ en then .ok .panic
  else if ¬ en ≤ getWord e.toTarget r 1 then .ok .panic
  else if en - st ≤ maxInline e.toTarget then
    let (m1, d) := asSlice e m r
    -- the bounds check of `&self[start..end]`
    if ¬ en ≤ d.length then .ok .panic
    else do
      let m2 ← dropRaw e m1 r
      .ok (.ok (m2, inlineUnchecked e.toTarget ((d.drop st).take (en - st))))
  else
    let r1 := setWord e.toTarget r 0 ((getWord e.toTarget r 0 + st) % wordMax e.toTarget)
    .ok (.ok (m, setWord e.toTarget r1 1 (en - st)))

/-- `shrink_to`, /repo/src/bytes.rs:223-244. -/
def shrinkTo (e : Env) (m : Mach) (r : Raw) (lo hi : Bound) : Except Fault (R (Mach × Raw)) :=
  match startOf e.toTarget lo, endOf e.toTarget r hi with
  | some st, some en => shrinkBetween e m r st en
  | _, _ => .ok .panic

/-- `subsliced`, /repo/src/bytes.rs:255-258. On panic the value is dropped by unwinding. -/
def subsliced (e : Env) (m : Mach) (r : Raw) (lo hi : Bound) : Except Fault (Mach × Option Raw) := do
  match ← shrinkTo e m r lo hi with
  | .ok (m', r') => .ok (m', some r')
  | .panic => do
    let m' ← dropRaw e m r
    .ok (m', none)

/-- The branch of `split_at` that clones, /repo/src/bytes.rs:286-293; `self` is dropped at the end. -/
def splitClones (e : Env) (m : Mach) (a b : Nat) (r : Raw) (index : Nat) : Except Fault (Mach × Split) := do
  match ← cloneRaw e m a r with
  | none => .ok (m, .oom)
  | some (m1, left) =>
    match ← cloneRaw e m1 b left with
    | none => .ok (m, .oom)
    | some (m2, right) => do
      let left' := setWord e.toTarget left 1 index
      let right1 := setWord e.toTarget right 1 (getWord e.toTarget right 1 - index)
      let right2 := setWord e.toTarget right1 0 ((getWord e.toTarget right1 0 + index) % wordMax e.toTarget)
      let m3 ← dropRaw e m2 r
      .ok (m3, .ok left' right2)

/-- `split_at`, /repo/src/bytes.rs:275-298; `a`, `b`: the addresses of the allocations, if any. -/
def splitAt (e : Env) (m : Mach) (a b : Nat) (r : Raw) (index : Nat) : Except Fault (Mach × Split) :=
  if index ≤ lenOf e.toTarget r then
    if index ≤ maxInline e.toTarget then do
      let (m1, d) := asSlice e m r
      let left := inlineUnchecked e.toTarget (d.take index)
      match ← subsliced e m1 r (.incl index) .unb with
      | (m2, some right) => .ok (m2, .ok left right)
      | (m2, none) => .ok (m2, .panic)
    else if lenOf e.toTarget r - index ≤ maxInline e.toTarget then do
      let (m1, d) := asSlice e m r
      let right := inlineUnchecked e.toTarget (d.drop index)
      match ← subsliced e m1 r .unb (.excl index) with
      | (m2, some left) => .ok (m2, .ok left right)
      | (m2, none) => .ok (m2, .panic)
    else splitClones e m a b r index
  else .ok (m, .err)

/-- `upgrade`, /repo/src/bytes.rs:338-343: what is borrowed is copied, then dropped. `none`: out of memory. -/
def upgrade (e : Env) (m : Mach) (a : Nat) (r : Raw) : Except Fault (Option (Mach × Raw)) := do
  match ← vtableOf e r with
  | none => .ok (some (m, r))
  | some vt =>
    if vt.release then .ok (some (m, r))
    else
      let (m1, d) := asSlice e m r
      match copiedFromSlice e m1 a d with
      | none => .ok none
      | some (m2, r') => do
        let m3 ← dropRaw e m2 r
        .ok (some (m3, r'))

/-! ## Histories -/

/-- A call of the API, by the index of the variables. Addresses are those that the program or its
allocator chooses. -/
inductive Op
  /-- `from_raw_parts`, /repo/src/bytes.rs:113-129. -/
  | fromRawParts (start len : Nat) (o : Own)
  /-- `from_slice`, /repo/src/bytes.rs:162-180. -/
  | fromSlice (start len : Nat)
  /-- `copied_from_slice`, /repo/src/bytes.rs:322-332, of any bytes. -/
  | copied (a : Nat) (d : List Byte)
  /-- `clone`, /repo/src/bytes.rs:693-698. -/
  | clone (i a : Nat)
  /-- `noalloc_clone`, /repo/src/bytes.rs:357-372. -/
  | noallocClone (i : Nat)
  /-- `drop`, /repo/src/bytes.rs:699-705. -/
  | drop (i : Nat)
  /-- `shrink_to`, /repo/src/bytes.rs:223-244. -/
  | shrinkTo (i : Nat) (lo hi : Bound)
  /-- `subsliced`, /repo/src/bytes.rs:255-258. -/
  | subsliced (i : Nat) (lo hi : Bound)
  /-- `split_at`, /repo/src/bytes.rs:275-298. -/
  | splitAt (i index a b : Nat)
  /-- `upgrade`, /repo/src/bytes.rs:338-343. -/
  | upgrade (i a : Nat)
  /-- `as_slice`, /repo/src/bytes.rs:310-316. -/
  | asSlice (i : Nat)
  /-- The program, or its allocator, writes to memory that the contract lets it reuse. Not in the code. -/
  | write (a : Nat) (v : Byte)
deriving DecidableEq, Repr

/-- What a call returns. Not in the code. -/
inductive Out
  | unit | none | data (d : List Byte) | panic | oom
  /-- Not a call that a program can make: the variable is gone, the slice does not fit in the address space,
  the vtable does not exist, or the memory may not be written. -/
  | refused
deriving DecidableEq, Repr

/-- The variables of type `Bytes` of a program (`none` once dropped or moved out), and its memory. -/
structure State where
  mach : Mach
  vars : List (Option Raw)

/-- A program before its first call, for any contents of the memory. -/
def State.init (mem : Nat → Byte) : State := ⟨⟨mem, []⟩, []⟩

/-- A variable. Not in the code. -/
def State.var (s : State) (i : Nat) : Option Raw := (s.vars[i]?).join

/-- Not in the code: a new variable. -/
def State.push (s : State) (m : Mach) (r : Raw) : State := ⟨m, s.vars ++ [some r]⟩

/-- Not in the code: a variable changed, or gone. -/
def State.put (s : State) (m : Mach) (i : Nat) (r : Option Raw) : State := ⟨m, s.vars.set i r⟩

/-- A slice that a program can have. -/
def okSlice (e : Env) (start len : Nat) : Bool := decide (start + len < wordMax e.toTarget)

/-- Arguments that `from_raw_parts` can be given: /repo/src/bytes.rs:113-118. -/
def okParts (e : Env) (start len : Nat) (o : Own) : Bool :=
  okSlice e start len && decide (o.owner < wordMax e.toTarget) && decide (o.cap < wordMax e.toTarget)
    && (e.vts o.vt).isSome

/-- `from_slice`, /repo/src/bytes.rs:162-180. -/
def fromSlice (e : Env) (m : Mach) (start len : Nat) : Mach × Raw :=
  if len ≤ maxInline e.toTarget then (m, inlineUnchecked e.toTarget (readMem m.mem start len))
  else fromRawParts e m start len ⟨e.sliceVt, start, len⟩

/-- One call. -/
def step (e : Env) (s : State) : Op → Except Fault (State × Out)
  | .fromRawParts st ln o =>
      if okParts e st ln o then
        let (m, r) := fromRawParts e s.mach st ln o
        .ok (s.push m r, .unit)
      else .ok (s, .refused)
  | .fromSlice st ln =>
      if okSlice e st ln then
        let (m, r) := fromSlice e s.mach st ln
        .ok (s.push m r, .unit)
      else .ok (s, .refused)
  | .copied a d => match copiedFromSlice e s.mach a d with
      | some (m, r) => .ok (s.push m r, .unit)
      | none => .ok (s, .oom)
  | .clone i a => match s.var i with
      | none => .ok (s, .refused)
      | some r => do match ← cloneRaw e s.mach a r with
        | some (m, r') => .ok (s.push m r', .unit)
        | none => .ok (s, .oom)
  | .noallocClone i => match s.var i with
      | none => .ok (s, .refused)
      | some r => do match ← noallocClone e s.mach r with
        | some (m, r') => .ok (s.push m r', .unit)
        | none => .ok (s, .none)
  | .drop i => match s.var i with
      | none => .ok (s, .refused)
      | some r => do
        let m ← dropRaw e s.mach r
        .ok (s.put m i none, .unit)
  | .shrinkTo i lo hi => match s.var i with
      | none => .ok (s, .refused)
      | some r => do match ← shrinkTo e s.mach r lo hi with
        | .ok (m, r') => .ok (s.put m i (some r'), .unit)
        | .panic => .ok (s, .panic)
  | .subsliced i lo hi => match s.var i with
      | none => .ok (s, .refused)
      | some r => do match ← subsliced e s.mach r lo hi with
        | (m, some r') => .ok (s.put m i (some r'), .unit)
        | (m, none) => .ok (s.put m i none, .panic)
  | .splitAt i k a b => match s.var i with
      | none => .ok (s, .refused)
      | some r => do match ← splitAt e s.mach a b r k with
        | (m, .ok l r') => .ok ((s.put m i (some l)).push m r', .unit)
        | (m, .err) => .ok (s.put m i (some r), .none)
        | (m, .panic) => .ok (s.put m i none, .panic)
        | (_, .oom) => .ok (s, .oom)
  | .upgrade i a => match s.var i with
      | none => .ok (s, .refused)
      | some r => do match ← upgrade e s.mach a r with
        | some (m, r') => .ok (s.put m i (some r'), .unit)
        | none => .ok (s, .oom)
  | .asSlice i => match s.var i with
      | none => .ok (s, .refused)
      | some r =>
        let (m, d) := asSlice e s.mach r
        .ok ({ s with mach := m }, .data d)
  | .write a v =>
      if mayWrite e s.mach.log a then .ok ({ s with mach := { s.mach with mem := writeMem s.mach.mem a [v] } }, .unit)
      else .ok (s, .refused)

/-- A history of calls. -/
def run (e : Env) (s : State) : List Op → Except Fault (State × List Out)
  | [] => .ok (s, [])
  | op :: ops => do
    let (s1, o) ← step e s op
    let (s2, os) ← run e s1 ops
    .ok (s2, o :: os)

end Verif.BytesVt
