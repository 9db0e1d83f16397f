import Verif.BytesVt.Model
/-!
# `Bytes` and `stabby::sync::ArcSlice<u8>`

Model of the conversions of src/bytes.rs 556-605 and 737-766 (feature `stabby`). An `ArcSlice<u8>` is its
raw form, the addresses of the first byte and of the end of its slice.
-/
namespace Verif.BytesVt
open Verif.Bytes (Byte Raw Fields getWord isInlined)

/-- An `ArcSlice<u8>`: `AllocSlice { start, end }`, as used at /repo/src/bytes.rs:559-562, 754-757. -/
structure ArcSlice where
  start : Nat
  end_ : Nat
deriving DecidableEq, Repr

/-- The owner in `From<ArcSlice<u8>>`, /repo/src/bytes.rs:594-597: `capacity` holds the end. `vt` is the address of
`STABBY_ARCSLICE_BYTESVT`, /repo/src/bytes.rs:581-584. -/
def ArcSlice.own (vt : Nat) (a : ArcSlice) : Own := ⟨vt, a.start, a.end_⟩

/-- `From<ArcSlice<u8>>`, /repo/src/bytes.rs:586-605. Out of line, always. -/
def fromArcSlice (e : Env) (m : Mach) (vt : Nat) (a : ArcSlice) : Mach × Raw :=
  fromRawParts e m a.start (a.end_ - a.start) (a.own vt)

/-- `TryFrom<Bytes> for ArcSlice<u8>`, /repo/src/bytes.rs:746-766. `none`: `Err(value)`. -/
def tryIntoArcSlice (e : Env) (vt : Nat) (r : Raw) : Option ArcSlice :=
  let owner := getWord e.toTarget r 2
  if isInlined e.toTarget r then none
  else if getWord e.toTarget r 4 = vt ∧ getWord e.toTarget r 0 = owner then
    some ⟨owner, owner + getWord e.toTarget r 1⟩
  else none

end Verif.BytesVt
