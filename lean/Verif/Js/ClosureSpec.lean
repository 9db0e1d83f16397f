import Verif.Js.Closure
/-!
# Specification of the callbacks

Which events may happen, given the events of the past (the latest first).
-/
namespace Verif.Js

/-- The call goes through the queue: it is detached, or made by another thread than JavaScript's. -/
def Queued (C : Cfg) (t : Nat) : Prop := C.detached = true ∨ t ≠ C.main

/-- The queue is done with the call. -/
def Handled (past : List Ev) (c : Nat) : Prop :=
  (∃ js, Ev.invoked c js ∈ past) ∨ Ev.skipped c ∈ past ∨ Ev.dropped c ∈ past

/-- What must have happened before an event, and what must not. -/
def Allowed (C : Cfg) (past : List Ev) : Ev → Prop
  -- A new call; the thread is not blocked in an earlier call.
  | .called c t _ =>
      (∀ t' args, Ev.called c t' args ∉ past) ∧
      (C.detached = false → t ≠ C.main → ∀ c' args', Ev.called c' t args' ∈ past → ∃ v, Ev.returned c' v ∈ past)
  | .dropped c => C.detached = true ∧ (∃ t args, Ev.called c t args ∈ past) ∧ ¬ Handled past c
  | .skipped c => ∃ t args e, Ev.called c t args ∈ past ∧ Queued C t ∧ C.toArgs args = .err e ∧ ¬ Handled past c
  -- The function is called once per call, with the arguments of the call; queued calls are made in order.
  | .invoked c js =>
      ∃ t args, Ev.called c t args ∈ past ∧ C.toArgs args = .ok js ∧ ¬ Handled past c ∧
        (Queued C t → ∀ c' t' args', c' < c → Ev.called c' t' args' ∈ past → Queued C t' → Handled past c')
  -- Something is sent at most once.
  | .sent c _ =>
      C.detached = false ∧ (∃ t args, Ev.called c t args ∈ past ∧ t ≠ C.main) ∧ (∃ js, Ev.invoked c js ∈ past) ∧
        ∀ j, Ev.sent c j ∉ past
  | .inner c _ => (∃ js, Ev.invoked c js ∈ past) ∧ (∀ r, Ev.inner c r ∉ past) ∧ ∀ r, Ev.finished c r ∉ past
  | .finished c _ => (∃ js, Ev.invoked c js ∈ past) ∧ ∀ r, Ev.finished c r ∉ past
  -- A native call returns once: a detached one nothing, the others what came from their own invocation.
  | .returned c v =>
      (∀ v', Ev.returned c v' ∉ past) ∧ ∃ t args, Ev.called c t args ∈ past ∧
        if C.detached then v = .void
        else (∃ js, C.toArgs args = .ok js ∧ Ev.invoked c js ∈ past) ∧
          if t = C.main then ∃ j, Ev.finished c (some j) ∈ past ∧ C.fromRet j = .ok v
          else ∃ j, Ev.sent c j ∈ past ∧ C.fromRet j = .ok v
  | .aborted => True

/-- All events are allowed, and none comes after the end of the process. -/
def Good (C : Cfg) : List Ev → Prop
  | [] => True
  | e :: past => Allowed C past e ∧ Ev.aborted ∉ past ∧ Good C past

/-- The calls are numbered in the order in which they are made. -/
def Numbered : List Ev → Prop
  | [] => True
  | .called c _ _ :: past => (∀ c' t args, Ev.called c' t args ∈ past → c' < c) ∧ Numbered past
  | _ :: past => Numbered past

/-- What happens at most once: calling, taking from the queue (or calling directly), sending, ending, returning. -/
def Ev.key : Ev → Option (Nat × Nat)
  | .called c _ _ => some (0, c)
  | .invoked c _ | .skipped c | .dropped c => some (1, c)
  | .sent c _ => some (2, c)
  | .inner c _ => some (3, c)
  | .finished c _ => some (4, c)
  | .returned c _ => some (5, c)
  | .aborted => none

/-- Whether the event takes call `c` from the queue. -/
def Ev.handles (c : Nat) : Ev → Bool
  | .invoked c' _ | .skipped c' | .dropped c' => c' == c
  | _ => false

/-- The queued calls that are neither made nor given up, the latest first. -/
def pending (C : Cfg) (log : List Ev) : List Nat :=
  log.filterMap fun
    | .called c t _ => if (C.detached || t != C.main) && !log.any (Ev.handles c) then some c else none
    | _ => none

/-- An operation that a function wrapped by `wrap_cb_for_ffi` leaves to its wrapper. -/
def Op.wrapped : Op → Bool
  | .send _ _ | .finish _ => false
  | _ => true

end Verif.Js
