import Verif.Fut.Model
/-! # Specification of futures and executors, in terms of what happened -/
namespace Verif.Fut
variable {W τ R : Type}

/-- The outcome of polling a future with `ws` in turn, until it completes or panics. -/
def outcome (F : Fut W τ R) (t : τ) : List W → Poll R
  | [] => .pending
  | w :: ws =>
      match F.poll w t with
      | (t, .pending) => outcome F t ws
      | (_, .ready r) => .ready r
      | (_, .panic) => .panic

/-- The contexts of the polls of the task: those before the executor drops it. -/
def taskPolls : List (SpawnOp W) → List W
  | [] => []
  | .pollTask w :: ops => w :: taskPolls ops
  | .dropTask :: _ => []
  | _ :: ops => taskPolls ops

/-- Has the executor's handle reported completion? (It is not polled again once it has.) -/
def handleDone (ops : List (SpawnOp W)) : Prop := ∃ ans, .pollJoin ans ∈ ops ∧ ans ≠ .val .pending
def handleDoneB (ops : List (BlockingOp R)) : Prop := ∃ ans, .pollJoin ans ∈ ops ∧ ans ≠ .val .pending

/-- How the action ended, if it did. -/
def ending : List (BlockingOut R) → Option (Option R)
  | [] => none
  | .finished r :: _ => some r
  | _ :: outs => ending outs

open Classical in
/-- What the future returned by `spawn` gives at a poll, when the handle answers `ans` (`done`: it had
reported completion before), the outcome of the task's polls so far is `o`, and the task has been
dropped or not. -/
noncomputable def joinResult (done dropped : Prop) (ans : Call PollFuture) (o : Poll R) : Poll R :=
  if ¬ done ∧ ans = .val .pending then .pending
  else if ¬ done ∧ ans = .panic then .panic
  else match o with
    | .ready r => .ready r
    | .panic => .panic
    | .pending => if dropped then .panic else .pending

open Classical in
/-- What is known of the action's result: its ending, or else whether it was dropped. -/
noncomputable def actionResult (outs : List (BlockingOut R)) : Poll (Option R) :=
  match ending outs with
  | some r => .ready r
  | none => if .dropped ∈ outs then .ready none else .pending

open Classical in
/-- What the future returned by `spawn_blocking` gives at a poll, if `o` is known of the action. -/
noncomputable def joinResultB (done : Prop) (ans : Call PollFuture) (o : Poll (Option R)) : Poll (Option R) :=
  if ¬ done ∧ ans = .val .pending then .pending
  else if ¬ done ∧ ans = .panic then .panic
  else o

end Verif.Fut
