import Verif.Js.Conv
/-!
# The deadlock timeout

Model of the `OnceCell` of src/js/closures/node_js.rs and of its two JavaScript functions. Calls from several
threads are atomic (`OnceCell`): a history is the sequence of the calls.
-/
namespace Verif.Js
open Text

/-- `DEADLOCK_TIMEOUT_MS`: src/js/closures/node_js.rs 13-15. -/
abbrev Timeout := Option (Option Nat)

/-- src/js/closures/node_js.rs 17-18. -/
def defaultTimeout : Nat := 5000

/-- src/js/closures/node_js.rs 858-863. -/
def getTimeout : Timeout → Option Nat
  | some t => t
  | none => some defaultTimeout

/-- src/js/closures/node_js.rs 866-876: `OnceCell::set`. The argument is an `Option<NonZeroU32>`. -/
def setTimeout (t : Option Nat) : Timeout → Timeout × Res Unit
  | none => (some t, .ok ())
  | some old => (some old, .err .genericFailure)

/-- `getDeadlockTimeout`: src/js/ffi_helpers.rs 153-164. -/
def getTimeoutJs (s : Timeout) : Res Js := .ok (.num (.fin ((getTimeout s).getD 0) 0))

/-- `NonZeroU32::new`. (core) src/js/ffi_helpers.rs 166-184. -/
def nonZero (n : Nat) : Option Nat := if n = 0 then none else some n

/-- `setDeadlockTimeout`: src/js/ffi_helpers.rs 166-184. The conversion of a `JsNumber` to `u32`
(`napi_get_value_uint32`) does not fail. -/
def setTimeoutJs (E : Env) (j : Js) (s : Timeout) : Timeout × Res Js :=
  match j with
  | .num x =>
      match setTimeout (nonZero (get32 E false x).toNat) s with
      | (s, .ok ()) => (s, .ok .undefined)
      | (s, .err e) => (s, .err e)
      | (s, .panic) => (s, .panic)
  | _ => (s, .err .wrongType)

/-- The four functions above. -/
inductive TOp
  /-- The Rust functions. -/
  | get
  | set (t : Option Nat)
  /-- The JavaScript functions. -/
  | getJs
  | setJs (j : Js)

/-- What they return. -/
inductive TOut
  | got (t : Option Nat)
  | set (r : Res Unit)
  | js (r : Res Js)

/-- One call. -/
def tstep (E : Env) (s : Timeout) : TOp → Timeout × TOut
  | .get => (s, .got (getTimeout s))
  | .set t => ((setTimeout t s).1, .set (setTimeout t s).2)
  | .getJs => (s, .js (getTimeoutJs s))
  | .setJs j => ((setTimeoutJs E j s).1, .js (setTimeoutJs E j s).2)

/-- What the calls of a history return. Not in the code. -/
def touts (E : Env) : Timeout → List TOp → List TOut
  | _, [] => []
  | s, op :: ops => (tstep E s op).2 :: touts E (tstep E s op).1 ops

end Verif.Js
