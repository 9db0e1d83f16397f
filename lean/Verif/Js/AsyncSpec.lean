import Verif.Js.Async
/-!
# Specification vocabulary for the asynchronous exports
-/
namespace Verif.Js
open Headers

/-- The event is a step of call `i`. -/
def AEv.of (i : Nat) : AEv → Bool
  | .threw _ | .refused _ => false
  | .promised k _ | .called k _ | .returned k _ | .settled k _ => k == i

/-- The steps of call `i`. -/
def steps (i : Nat) (log : List AEv) : List AEv := log.filter (·.of i)

mutual
/-- The value, but for the contents of the buffers that it points to. -/
def Val.shape : Val → Val
  | .ptr (.mem bs) => .ptr (.mem (bs.map fun _ => 0))
  | .struct vs => .struct (shapes vs)
  | v => v
def shapes : List Val → List Val
  | [] => []
  | v :: vs => v.shape :: shapes vs
end

mutual
/-- JavaScript may pass a buffer that is not copied: strings and slices of bytes. -/
def JTy.takesBuffer : JTy → Bool
  | .ptr true .cchar => true
  | .struct sliceRef _ fields => sliceRef || takeBuffer fields
  | _ => false
def takeBuffer : List JTy → Bool
  | [] => false
  | ty :: tys => ty.takesBuffer || takeBuffer tys
end

/-- The operation makes the worker pool run task `i`. -/
def PoolOp.runs (i : Nat) : PoolOp → Bool
  | .compute k => k == i
  | _ => false

end Verif.Js
