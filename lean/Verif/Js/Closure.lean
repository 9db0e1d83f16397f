import Verif.Js.Conv
/-!
# Native calls of JavaScript callbacks

Model of `Closure_` of src/js/closures/node_js.rs: a transition system with any number of native threads,
the JavaScript thread with its event loop, one queue per closure (the `ThreadsafeFunction`) and one channel
per waiting call. The JavaScript code is arbitrary: it may call the `ret_sender` it was given any number of
times, at any time.

From N-API's documentation: the queue is first in, first out; its calls are made one at a time, when
no JavaScript runs; with a bound, a non-blocking call on a full queue fails. A panic in a `ret_sender` is
turned into a JavaScript exception by napi-rs. Not modelled: the end of the Node.js environment while
calls are pending.
-/
namespace Verif.Js
open Text Headers

/-- A closure: its synchronicity, its types, the JavaScript thread, whether the deadlock timeout is
enabled. src/js/closures/node_js.rs 186-220: `Closure_`; the timeout: 858-863. -/
structure Cfg where
  E : Env
  b : Nat → Text
  narrow : Num → Num
  detached : Bool
  params : List JTy
  ret : JTy
  main : Nat
  timeout : Bool

/-- Each argument in turn, src/js/closures/node_js.rs 744-751, 821-828. -/
def toAll (E : Env) (b : Nat → Text) : List JTy → List Val → Res (List Js)
  | [], [] => .ok []
  | ty :: tys, v :: vs => (toJs E b ty v).bind fun j => (toAll E b tys vs).map (j :: ·)
  | _, _ => .panic

/-- The arguments of the callback, without the `ret_sender`: src/js/closures/node_js.rs 744-751, 821-828. -/
def Cfg.toArgs (C : Cfg) (args : List Val) : Res (List Js) := toAll C.E C.b C.params args

/-- The returned value: src/js/closures/node_js.rs 754-773, 806; src/js/_mod.rs 118. -/
def Cfg.fromRet (C : Cfg) (j : Js) : Res Val := fromJs C.E C.b C.narrow C.ret j

/-- One native call of the callback. src/js/closures/node_js.rs 557-562, 677-703: the arguments and the
channel of a call. -/
structure Call where
  thread : Nat
  args : List Val
  /-- The JavaScript function has been called. -/
  invoked : Bool := false
  /-- What was sent through the channel, the first time. -/
  sent : Option (Res Val) := none
  /-- The sending half of the channel exists. -/
  sender : Bool := true
  /-- The native call has returned. -/
  done : Bool := false

/-- What happens, as seen by the native threads and by JavaScript. Calls are numbered. Not in the code. -/
inductive Ev
  /-- Thread `t` calls the callback with `args`. -/
  | called (c t : Nat) (args : List Val)
  /-- The queue is full: the call is not going to be made. -/
  | dropped (c : Nat)
  /-- The arguments have no JavaScript form: the call is not going to be made. -/
  | skipped (c : Nat)
  /-- The JavaScript function is called. -/
  | invoked (c : Nat) (js : List Js)
  /-- The JavaScript function has passed `j` to its `ret_sender`. -/
  | sent (c : Nat) (j : Js)
  /-- The function wrapped by `wrap_cb_for_ffi` has returned, or thrown. -/
  | inner (c : Nat) (r : Option Js)
  /-- The JavaScript function has returned, or thrown. -/
  | finished (c : Nat) (r : Option Js)
  /-- The native call has returned `v`. -/
  | returned (c : Nat) (v : Val)
  | aborted

/-- Not in the code: the calls so far, the queue of the `ThreadsafeFunction` (N-API), the JavaScript
stack. -/
structure State where
  calls : List Call := []
  queue : List Nat := []
  /-- The JavaScript calls in progress, the innermost first. -/
  stack : List Nat := []
  dead : Bool := false
  /-- All events so far, the latest first. -/
  log : List Ev := []

/-- What the threads, JavaScript and N-API can do next; `step` cites the code of each. -/
inductive Op
  /-- A thread calls the callback. -/
  | call (t : Nat) (args : List Val)
  /-- The event loop takes a call from the queue. -/
  | dequeue
  /-- JavaScript calls the `ret_sender` of a call, with or without an argument. -/
  | send (c : Nat) (j : Option Js)
  /-- The innermost JavaScript call ends. -/
  | finish (r : Option Js)
  /-- The same, for a function wrapped by `wrap_cb_for_ffi`: the inner function ends. -/
  | inner (r : Option Js)
  /-- The garbage collector drops a `ret_sender`. -/
  | collect (c : Nat)
  /-- A waiting thread receives. -/
  | recv (c : Nat)
  | timeout (c : Nat)
  | closed (c : Nat)
  /-- The process ends for another reason. -/
  | kill

/-- `max_queue_size`: src/js/closures/node_js.rs 425-441. -/
def queueBound : Nat := 1024

section
variable (C : Cfg)

/-- Called on the JavaScript thread, and not detached: src/js/closures/node_js.rs 647, 731. -/
def direct (k : Call) : Bool := !C.detached && k.thread == C.main

/-- The call waits on its channel. src/js/closures/node_js.rs 704-728. -/
def waits (k : Call) : Bool := !C.detached && k.thread != C.main && !k.done

/-- A panic in the trampoline: src/js/closures/node_js.rs 564-576. -/
def abort (s : State) : State := { s with dead := true, log := .aborted :: s.log }

/-- Not in the code. -/
def State.update (s : State) (c : Nat) (f : Call → Call) : State := { s with calls := s.calls.modify c f }

/-- `call_trampoline`: src/js/closures/node_js.rs 586-643 (detached), 647-707 (other threads: the call is
queued, the thread waits), 731-752 (JavaScript thread: the function is called at once). -/
def stepCall (s : State) (t : Nat) (args : List Val) : State :=
  let c := s.calls.length
  let log := .called c t args :: s.log
  if C.detached then
    if queueBound ≤ s.queue.length then
      { s with calls := s.calls ++ [{ thread := t, args, done := true }], log := .returned c .void :: .dropped c :: log }
    else
      { s with calls := s.calls ++ [{ thread := t, args, done := true }], queue := s.queue ++ [c], log := .returned c .void :: log }
  else if t = C.main then
    match C.toArgs args with
    | .ok js =>
        { s with calls := s.calls ++ [{ thread := t, args, invoked := true }], stack := c :: s.stack, log := .invoked c js :: log }
    | _ => abort { s with calls := s.calls ++ [{ thread := t, args }], log := log }
  else if s.calls.any (fun k => k.thread == t && waits C k) then s
  else { s with calls := s.calls ++ [{ thread := t, args }], queue := s.queue ++ [c], log := log }

/-- The event loop calls `convert_params`, then the function: src/js/closures/node_js.rs 779-830. An error
drops the sender. -/
def stepDequeue (s : State) : State :=
  match s.stack, s.queue with
  | [], c :: queue =>
      match s.calls[c]? with
      | none => s
      | some k => match C.toArgs k.args with
        | .ok js => { s.update c ({ · with invoked := true }) with queue, stack := [c], log := .invoked c js :: s.log }
        | .err _ => { s.update c ({ · with sender := false }) with queue, log := .skipped c :: s.log }
        | .panic => abort { s with queue }
  | _, _ => s

/-- The `ret_sender`: src/js/closures/node_js.rs 800-817. The dummy one has no effect (847-850). -/
def stepSend (s : State) (c : Nat) (j : Option Js) : State :=
  match s.calls[c]?, j with
  | some k, some j =>
      if C.detached || k.thread == C.main || !k.invoked || !k.sender || k.sent.isSome then s
      else match C.fromRet j with
        | .panic => s
        | r => { s.update c ({ · with sent := some r }) with log := .sent c j :: s.log }
  | _, _ => s

/-- The innermost JavaScript call ends; if it is a direct call, its value is converted:
src/js/closures/node_js.rs 754-776. -/
def stepFinish (s : State) (r : Option Js) : State :=
  match s.stack with
  | [] => s
  | c :: stack =>
      let s' := { s with stack, log := .finished c r :: s.log }
      match s.calls[c]? with
      | none => s
      | some k =>
          if direct C k then
            match r.map C.fromRet with
            | some (.ok v) => { s'.update c ({ · with done := true }) with log := .returned c v :: s'.log }
            | _ => abort s'
          else s'

/-- `wrap_cb_for_ffi`, src/js/closures/node_js.rs 667-675: `return send_ret(f(...args))`, exceptions are
printed. The dummy `ret_sender` returns its argument. -/
def stepInner (s : State) (r : Option Js) : State :=
  match s.stack with
  | [] => s
  | c :: _ =>
      let s' := { s with log := .inner c r :: s.log }
      match s.calls[c]?, r with
      | none, _ => s
      | some k, some j =>
          if C.detached || k.thread == C.main then stepFinish C s' (some j)
          else stepFinish C (stepSend C s' c (some j)) (some .undefined)
      | some _, none => stepFinish C s' (some .undefined)

/-- A waiting thread: src/js/closures/node_js.rs 704-728, 776. -/
def stepWait (s : State) (c : Nat) (f : Call → State) : State :=
  match s.calls[c]? with
  | some k => if waits C k then f k else s
  | none => s

/-- One step; the functions called carry the citations. `collect`: a channel whose sender is dropped is
closed (std). `recv`, `timeout`, `closed`: src/js/closures/node_js.rs 704-728, 776. -/
def step (s : State) (op : Op) : State :=
  if s.dead then s
  else match op with
  | .call t args => stepCall C s t args
  | .dequeue => stepDequeue C s
  | .send c j => stepSend C s c j
  | .finish r => stepFinish C s r
  | .inner r => stepInner C s r
  | .collect c =>
      match s.calls[c]? with
      | some k => if k.invoked && !s.stack.contains c then s.update c ({ · with sender := false }) else s
      | none => s
  | .recv c => stepWait C s c fun k =>
      match k.sent with
      | none => s
      | some (.ok v) => { s.update c ({ · with done := true }) with log := .returned c v :: s.log }
      | some _ => abort s
  | .timeout c => stepWait C s c fun k => if C.timeout && k.sent.isNone then abort s else s
  | .closed c => stepWait C s c fun k => if k.sent.isNone && !k.sender then abort s else s
  | .kill => abort s

/-- Not in the code: a schedule. -/
def run (ops : List Op) : State := ops.foldl (step C) {}
end

end Verif.Js
