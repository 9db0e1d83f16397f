import Verif.Bytes.Model
/-!
# Serialization of `Bytes`

Model of src/bytes.rs 821-877 (feature `serde`), on top of the histories of `Verif.Bytes.Model`. A data
format is a serde `Deserializer`: it calls one of the functions of the visitor.
-/
namespace Verif.Bytes

/-- How a data format hands over its input: the functions of serde's `Visitor` that `BytesVisitor`
implements, /repo/src/bytes.rs:839-865. The elements of a sequence (`SeqAccess`) may fail; `hint` is its `size_hint`. -/
inductive Visit
  | borrowedBytes (d : List Byte)   -- `&'de [u8]`, /repo/src/bytes.rs:839-841
  | bytes (d : List Byte)           -- `&[u8]`, valid during the call only, /repo/src/bytes.rs:843-845
  | byteBuf (d : List Byte)         -- `Vec<u8>`, /repo/src/bytes.rs:847-849
  | seq (hint : Option Nat) (elems : List (Option Byte))  -- `None`: an error, /repo/src/bytes.rs:851-864
deriving DecidableEq, Repr

/-- The result of deserializing. Not in the code. -/
inductive Deser
  | ok (i : Nat)   -- a new `Bytes` variable
  | err            -- `Err`, the error of the sequence
  | panic
  | oom
deriving DecidableEq, Repr

/-- `while let Some(c) = seq.next_element::<u8>()? { buf.push(c) }`, /repo/src/bytes.rs:857-859. -/
def collect : List (Option Byte) → Option (List Byte)
  | [] => some []
  | none :: _ => none
  | some c :: l => (collect l).map (c :: ·)

/-- `isize::MAX`, the largest capacity of a `Vec<u8>`: beyond it `Vec::with_capacity` panics (std), as called
at /repo/src/bytes.rs:855. -/
def maxCapacity (t : Target) : Nat := wordMax t / 2 - 1

/-- What a constructor gave. Not in the code. -/
def deserOf : Out → Deser
  | .bytes i => .ok i
  | .oom => .oom
  | _ => .panic

/-- `BytesVisitor`, /repo/src/bytes.rs:832-865. The value that `visit_bytes` upgrades is the one it made. -/
def visit (e : Env) (s : State) : Visit → Except Fault (State × Deser)
  | .borrowedBytes d => do
      let (s1, o) ← step e s (.fromSlice d)
      .ok (s1, deserOf o)
  | .bytes d => do
      let (s1, o) ← step e s (.fromSlice d)
      match o with
      | .bytes i => do
        let (s2, o2) ← step e s1 (.upgrade i)
        match o2 with
        | .unit => .ok (s2, .ok i)
        | _ => .ok (s2, .oom)
      | o => .ok (s1, deserOf o)
  | .byteBuf d => do
      let (s1, o) ← step e s (.fromBox d)
      .ok (s1, deserOf o)
  | .seq hint elems =>
      -- `Vec::with_capacity(seq.size_hint().unwrap_or(64))`
      if maxCapacity e.toTarget < hint.getD 64 then .ok (s, .panic)
      else match collect elems with
        | none => .ok (s, .err)
        | some d => do
          let (s1, o) ← step e s (.fromBox d)
          .ok (s1, deserOf o)

/-- `serialize`, /repo/src/bytes.rs:822-826: what `serialize_bytes` is given. -/
def serialize (e : Env) (s : State) (i : Nat) : Except Fault (Option (List Byte)) :=
  match s.handle i with
  | none => .ok none
  | some h => do
    let d ← asSlice e.toTarget s.heap h.raw
    .ok (some d)

end Verif.Bytes
