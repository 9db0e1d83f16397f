/-!
# Wakers handed to foreign code: model

`ffi_export_future_helpers!` (/repo/src/dyn_traits/futures/executor.rs lines 205-226) exports two functions with which a
future implemented in C uses the `Context` its `dyn_poll` is given (/repo/src/dyn_traits/futures/_mod.rs lines 28-34): one
wakes the task, the other gives a closure that wakes it later. The closure is a `repr_c::Arc<dyn Send + Sync + Fn()>`
(/repo/src/closure/arc.rs), which C calls, retains and releases.

Tasks and closures are numbered. Steps are atomic, and any interleaving of them is a history, so that wakers may be used
by any threads.
-/
namespace Verif.Waker

/-- A task of the executor, and its waker (`core::task::Waker`, counted by the executor's `RawWakerVTable`; trusted).
`rc`: references to the waker; `freed`: it is gone; `owned`: the executor still has the task, and a reference to the waker;
`sched`: the task is in the queue of those to poll; `polling`: a poll is in progress, during which the `Context` exists. -/
structure Task where
  rc : Nat
  freed : Bool
  owned : Bool
  sched : Bool
  polling : Bool
deriving DecidableEq, Repr

/-- The closure made by `rust_future_task_context_get_waker`, /repo/src/dyn_traits/futures/executor.rs line 223: `task`, the
captured waker; `rc`: the strong count of the `Arc`; `freed`: it was dropped. `held`: how many references C owns (not in the
code: for the contract of C). -/
structure Clo where
  task : Nat
  rc : Nat
  freed : Bool
  held : Nat
deriving DecidableEq, Repr

/-- What happens. -/
inductive Ev
  | wake (t : Nat)
  | freeWaker (t : Nat)
  | freeClo (c : Nat)
  /-- something was used after its end -/
  | useFreed
deriving DecidableEq, Repr

/-- Everything. -/
structure State where
  nt : Nat
  tasks : Nat → Task
  nc : Nat
  clos : Nat → Clo
  log : List Ev

/-- Table update. -/
def upd {α : Type} (f : Nat → α) (i : Nat) (a : α) : Nat → α := fun j => if j = i then a else f j

/-- Nothing yet. -/
def State.init : State where
  nt := 0
  tasks := fun _ => ⟨0, true, false, false, false⟩
  nc := 0
  clos := fun _ => ⟨0, 0, true, 0⟩
  log := []

/-- `Waker::wake_by_ref` (trusted executor): the task is put in the queue, if the executor still has it. -/
def wakeByRef (s : State) (t : Nat) : State :=
  let k := s.tasks t
  if k.freed then { s with log := s.log ++ [.useFreed] }
  else { s with tasks := upd s.tasks t { k with sched := k.sched || k.owned }, log := s.log ++ [.wake t] }

/-- `Waker::clone` (trusted executor). -/
def cloneWaker (s : State) (t : Nat) : State :=
  let k := s.tasks t
  if k.freed then { s with log := s.log ++ [.useFreed] }
  else { s with tasks := upd s.tasks t { k with rc := k.rc + 1 } }

/-- Dropping a `Waker` (trusted executor). -/
def dropWaker (s : State) (t : Nat) : State :=
  let k := s.tasks t
  if k.freed then { s with log := s.log ++ [.useFreed] }
  else if k.rc = 1 then
    { s with tasks := upd s.tasks t { k with rc := 0, freed := true }, log := s.log ++ [.freeWaker t] }
  else { s with tasks := upd s.tasks t { k with rc := k.rc - 1 } }

/-- The reference to the `Context` is followed: it exists during the poll only. -/
def context (s : State) (t : Nat) (k : State → State) : State :=
  if (s.tasks t).polling then k s else { s with log := s.log ++ [.useFreed] }

/-- `rust_future_task_context_wake`, /repo/src/dyn_traits/futures/executor.rs lines 209-215. -/
def contextWake (s : State) (t : Nat) : State :=
  context s t fun s => wakeByRef s t

/-- `rust_future_task_context_get_waker`, /repo/src/dyn_traits/futures/executor.rs lines 217-224: the waker is cloned (line
222), then moved into a closure in an `Arc` of count 1 (line 223), given to C. -/
def getWaker (s : State) (t : Nat) : State :=
  context s t fun s =>
    let s := cloneWaker s t
    { s with nc := s.nc + 1, clos := upd s.clos s.nc ⟨t, 1, false, 1⟩ }

/-- The call of the closure, /repo/src/dyn_traits/futures/executor.rs line 223 (`waker.wake_by_ref()`), through
/repo/src/closure/arc.rs lines 148-164. -/
def callClo (s : State) (c : Nat) : State :=
  let k := s.clos c
  if k.freed then { s with log := s.log ++ [.useFreed] } else wakeByRef s k.task

/-- `retain`, /repo/src/closure/arc.rs lines 134-147. -/
def retain (s : State) (c : Nat) : State :=
  let k := s.clos c
  if k.freed then { s with log := s.log ++ [.useFreed] }
  else { s with clos := upd s.clos c { k with rc := k.rc + 1, held := k.held + 1 } }

/-- `release`, /repo/src/closure/arc.rs lines 124-133: the last reference drops the closure, hence the captured waker. -/
def release (s : State) (c : Nat) : State :=
  let k := s.clos c
  if k.freed then { s with log := s.log ++ [.useFreed] }
  else if k.rc = 1 then
    dropWaker { s with clos := upd s.clos c { k with rc := 0, freed := true, held := k.held - 1 },
                       log := s.log ++ [.freeClo c] } k.task
  else { s with clos := upd s.clos c { k with rc := k.rc - 1, held := k.held - 1 } }

/-- What the executor and C do. -/
inductive Op
  /-- The executor takes a task, with a waker of count 1, and queues it. -/
  | spawn
  /-- The executor starts polling: the task leaves the queue, a `Context` is made from its waker. -/
  | poll (t : Nat)
  /-- The poll returns. -/
  | endPoll (t : Nat)
  /-- The executor drops the task and its reference to the waker. -/
  | complete (t : Nat)
  | contextWake (t : Nat)
  | getWaker (t : Nat)
  | call (c : Nat)
  | retain (c : Nat)
  | release (c : Nat)
deriving DecidableEq, Repr

/-- One step. -/
def step (s : State) : Op → State
  | .spawn => { s with nt := s.nt + 1, tasks := upd s.tasks s.nt ⟨1, false, true, true, false⟩ }
  | .poll t => { s with tasks := upd s.tasks t { s.tasks t with sched := false, polling := true } }
  | .endPoll t => { s with tasks := upd s.tasks t { s.tasks t with polling := false } }
  | .complete t => dropWaker { s with tasks := upd s.tasks t { s.tasks t with owned := false, sched := false } } t
  | .contextWake t => contextWake s t
  | .getWaker t => getWaker s t
  | .call c => callClo s c
  | .retain c => retain s c
  | .release c => release s c

/-- A history. -/
def run (s : State) : List Op → State
  | [] => s
  | op :: ops => run (step s op) ops

end Verif.Waker
