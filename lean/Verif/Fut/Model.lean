/-!
# Model of FFI futures and of the executor adaptors

`src/dyn_traits/futures/_mod.rs` and `src/dyn_traits/futures/executor.rs`.

A future is a state machine.  What the future can observe at each poll besides its own state (the
context it is given, the clock, other tasks) is the parameter `w : W` of that poll, chosen freely.

Not modelled: wakers (the results below hold for every schedule of polls, so also for those which wakers
bring about), `enter`, `async_compat::Compat`.  A panic in a function called through a vtable aborts the
process with recent compilers; here the program goes on, with the panic as the result of the call, which
covers more behaviours.
-/
namespace Verif.Fut

/-- `core::task::Poll`, or a panic. (core) The result of `/repo/src/dyn_traits/futures/_mod.rs` lines 37-47, 55-60. -/
inductive Poll (R : Type)
  | pending
  | ready (r : R)
  | panic
deriving DecidableEq, Repr

/-- A Rust future. (core) The implementor of `Future` in `/repo/src/dyn_traits/futures/_mod.rs` lines 37-47, `/repo/src/dyn_traits/futures/executor.rs` lines 54,
118. -/
structure Fut (W τ R : Type) where
  poll : W → τ → τ × Poll R

/-- `PollFuture`, `/repo/src/dyn_traits/futures/_mod.rs` lines 18-26, by its discriminant. -/
abbrev PollFuture := Int8
/-- `/repo/src/dyn_traits/futures/_mod.rs` lines 18-26. -/
def PollFuture.completed : PollFuture := 0
/-- `/repo/src/dyn_traits/futures/_mod.rs` lines 18-26. -/
def PollFuture.pending : PollFuture := -1

/-- The result of a call through the vtable: a value or a panic. The calls of `/repo/src/dyn_traits/futures/_mod.rs` lines 55-60 and
`/repo/src/dyn_traits/futures/executor.rs` lines 58, 94, 127. -/
inductive Call (α : Type)
  | val (a : α)
  | panic
deriving DecidableEq, Repr

/-- The state of the futures made by `async` blocks and functions (language semantics): polling one again
after it has returned or panicked panics. For the blocks of `/repo/src/dyn_traits/futures/executor.rs` lines 59, 64, 95, 122, 158, 174
and `/repo/src/dyn_traits/futures/_mod.rs` lines 50-64. -/
inductive Async (τ : Type)
  | suspended (t : τ)
  | returned
  | poisoned
deriving DecidableEq, Repr

section
variable {W τ ω R : Type}

/-- The state of an `async` block after its body ran up to the next suspension point or to its end.
(language) See `Async`. -/
def Async.settle : ω × τ × Poll R → ω × Async τ × Poll R
  | (s, t, .pending) => (s, .suspended t, .pending)
  | (s, _, .ready r) => (s, .returned, .ready r)
  | (s, _, .panic) => (s, .poisoned, .panic)

/-- One poll of an `async` block, given what resuming its body does (with an effect on shared state).
(language) See `Async`. -/
def Async.poll (body : ω → τ → ω × τ × Poll R) (s : ω) : Async τ → ω × Async τ × Poll R
  | .suspended t => settle (body s t)
  | .returned => (s, .returned, .panic)
  | .poisoned => (s, .poisoned, .panic)

/-- `impl<F : Future<Output = ()>> FfiFuture for F`, `/repo/src/dyn_traits/futures/_mod.rs` lines 37-46. -/
def dynPoll : Poll Unit → Call PollFuture
  | .pending => .val .pending
  | .ready () => .val .completed
  | .panic => .panic

/-- The closure given to `poll_fn` in `into_future`, `/repo/src/dyn_traits/futures/_mod.rs` lines 55-58.  The two values are the only
ones of the enum. -/
def undynPoll : Call PollFuture → Poll Unit
  | .val x => if x = .pending then .pending else .ready ()
  | .panic => .panic

/-- One poll of `VirtualPtr::from(Box::pin(fut)).into_future()`, `/repo/src/dyn_traits/futures/_mod.rs` lines 50-62: an `async fn`
around the `poll_fn` closure, which owns the pointer. -/
def intoFuturePoll (F : Fut W τ Unit) (w : W) (t : Async τ) : Async τ × Poll Unit :=
  (Async.poll (fun (s : Unit) t => (s, (F.poll w t).1, undynPoll (dynPoll (F.poll w t).2))) () t).2

/-- A sequence of polls. Not in the code: what an executor does with a future. -/
def polls {S A : Type} (f : W → S → S × A) (s : S) : List W → List A
  | [] => []
  | w :: ws => (f w s).2 :: polls f (f w s).1 ws

/-! ## `futures::channel::oneshot` (a dependency)

`futures-channel`'s `Inner`: a flag `complete`, set when either end goes away, and a slot. -/
/-- Made at `/repo/src/dyn_traits/futures/executor.rs` lines 57, 81. -/
structure Chan (R : Type) where
  complete : Bool
  data : Option R
deriving DecidableEq, Repr

/-- `oneshot::channel()`, `/repo/src/dyn_traits/futures/executor.rs` lines 57, 81. -/
def Chan.new : Chan R := ⟨false, none⟩
/-- `Sender::send`, which consumes the sender. `/repo/src/dyn_traits/futures/executor.rs` lines 60, 83. -/
def Chan.send (c : Chan R) (r : R) : Chan R := if c.complete then c else ⟨true, some r⟩
/-- Dropping the sender, or the receiver. At the end of the blocks of `/repo/src/dyn_traits/futures/executor.rs` lines 59-61, 64-70,
82-84, 95-98, when they are dropped. -/
def Chan.close (c : Chan R) : Chan R := { c with complete := true }
/-- Polling the receiver; `none` is `Err(Canceled)`. `/repo/src/dyn_traits/futures/executor.rs` lines 66, 97. -/
def Chan.recv (c : Chan R) : Chan R × Poll (Option R) :=
  if c.complete then ({ c with data := none }, .ready c.data) else (c, .pending)

/-! ## `spawn` -/

/-- The body of `async move { tx.send(fut.await).ok(); }`, `/repo/src/dyn_traits/futures/executor.rs` lines 59-61.  When `fut` panics
the block's variables are dropped, `tx` among them. -/
def taskBody (F : Fut W τ R) (w : W) (c : Chan R) (t : τ) : Chan R × τ × Poll Unit :=
  match F.poll w t with
  | (t, .pending) => (c, t, .pending)
  | (t, .ready r) => (c.send r, t, .ready ())
  | (t, .panic) => (c.close, t, .panic)

/-- Where `async move { fut.into_future().await; rx.await… }` is suspended. `/repo/src/dyn_traits/futures/executor.rs` lines 64-70,
95-98. -/
inductive Join
  /-- in `fut.into_future().await` -/
  | handle (h : Async Unit)
  /-- in `rx.await` -/
  | rx
deriving DecidableEq, Repr

/-- The body of `async move { fut.into_future().await; k(rx.await) }`, `/repo/src/dyn_traits/futures/executor.rs` lines 64-70 and
95-98.  `ans` is what the executor's handle answers, if it is polled. -/
def joinBody {Q : Type} (k : Option R → Poll Q) (ans : Call PollFuture) (c : Chan R) : Join → Chan R × Join × Poll Q
  | .handle h =>
      match Async.poll (fun (s : Unit) (_ : Unit) => (s, (), undynPoll ans)) () h with
      | (_, h, .pending) => (c, .handle h, .pending)
      -- `rx` is dropped
      | (_, h, .panic) => (c.close, .handle h, .panic)
      | (_, _, .ready ()) => rx c
  | .rx => rx c
where
  rx (c : Chan R) : Chan R × Join × Poll Q :=
    match c.recv with
    | (c, .ready x) => (c, .rx, k x)
    | (c, .pending) => (c, .rx, .pending)
    | (c, .panic) => (c, .rx, .panic)

/-- `.expect("executor dropped the `spawn`ed task before its completion")`, `/repo/src/dyn_traits/futures/executor.rs` lines 67-69. -/
def expectSent : Option R → Poll R
  | some r => .ready r
  | none => .panic

/-- The channel; the task, as long as the executor has it; the future that `spawn` returned, as long as
the user has it. `/repo/src/dyn_traits/futures/executor.rs` lines 52-71. -/
structure Spawn (τ R : Type) where
  chan : Chan R
  task : Option (Async τ)
  join : Option (Async Join)
deriving DecidableEq, Repr

/-- What can happen: the executor polls or drops the task, the user polls or drops the future. `ans` is
what the executor's handle answers if it is polled. The caller and the executor of `/repo/src/dyn_traits/futures/executor.rs` lines
52-71. -/
inductive SpawnOp (W : Type)
  | pollTask (w : W)
  | dropTask
  | pollJoin (ans : Call PollFuture)
  | dropJoin
deriving DecidableEq, Repr

/-- What is seen of it: results of polls of the task and of the future of `/repo/src/dyn_traits/futures/executor.rs` lines 59-70. -/
inductive SpawnOut (R : Type)
  | task (p : Call PollFuture)
  | join (p : Poll R)
  | unit
  /-- The thing is gone already. -/
  | gone
deriving DecidableEq, Repr

/-- `spawn`, `/repo/src/dyn_traits/futures/executor.rs` lines 52-71. -/
def Spawn.new (t : τ) : Spawn τ R :=
  ⟨Chan.new, some (.suspended t), some (.suspended (.handle (.suspended ())))⟩

/-- Dropping an `async` block drops what it owns: `tx`. (language) `/repo/src/dyn_traits/futures/executor.rs` lines 59-61, 64-70. -/
def dropBlock (c : Chan R) : Async τ → Chan R
  | .suspended _ => c.close
  | .returned => c
  | .poisoned => c

/-- One event of a `spawn`, `/repo/src/dyn_traits/futures/executor.rs` lines 52-71. -/
def Spawn.step (F : Fut W τ R) (s : Spawn τ R) : SpawnOp W → Spawn τ R × SpawnOut R
  | .pollTask w =>
      match s.task with
      | some a =>
          let r := Async.poll (taskBody F w) s.chan a
          ({ s with chan := r.1, task := some r.2.1 }, .task (dynPoll r.2.2))
      | none => (s, .gone)
  | .dropTask =>
      match s.task with
      | some a => ({ s with chan := dropBlock s.chan a, task := none }, .unit)
      | none => (s, .gone)
  | .pollJoin ans =>
      match s.join with
      | some j =>
          let r := Async.poll (joinBody expectSent ans) s.chan j
          ({ s with chan := r.1, join := some r.2.1 }, .join r.2.2)
      | none => (s, .gone)
  | .dropJoin =>
      match s.join with
      | some j => ({ s with chan := dropBlock s.chan j, join := none }, .unit)
      | none => (s, .gone)

/-- Not in the code: a schedule. -/
def Spawn.run (F : Fut W τ R) (s : Spawn τ R) : List (SpawnOp W) → Spawn τ R × List (SpawnOut R)
  | [] => (s, [])
  | op :: ops =>
      let r := s.step F op
      let r' := Spawn.run F r.1 ops
      (r'.1, r.2 :: r'.2)

/-! ## `spawn_blocking` -/

/-- `action` is the variable captured by the closure, `Some` until it has been called; the closure itself
is there as long as the executor has it. `running`: a call of the action has begun. `/repo/src/dyn_traits/futures/executor.rs` lines
74-99. -/
structure Blocking (R : Type) where
  chan : Chan R
  closure : Option Bool
  running : Bool
  join : Option (Async Join)
deriving DecidableEq, Repr

/-- The caller and the executor of `/repo/src/dyn_traits/futures/executor.rs` lines 74-99. -/
inductive BlockingOp (R : Type)
  /-- The executor calls the closure. -/
  | call
  /-- The action returns `r`, or panics. -/
  | finish (r : Option R)
  | dropClosure
  | pollJoin (ans : Call PollFuture)
  | dropJoin
deriving DecidableEq, Repr

/-- What is seen of it: the calls of the closure of `/repo/src/dyn_traits/futures/executor.rs` lines 85-93, the polls of lines 95-98.
-/
inductive BlockingOut (R : Type)
  /-- The action starts. -/
  | started
  | finished (r : Option R)
  | panicked
  | dropped
  | join (p : Poll (Option R))
  | unit
  /-- The thing is gone already, or in use. -/
  | gone
deriving DecidableEq, Repr

/-- `spawn_blocking`, `/repo/src/dyn_traits/futures/executor.rs` lines 74-99. -/
def Blocking.new : Blocking R := ⟨Chan.new, some true, false, some (.suspended (.handle (.suspended ())))⟩

/-- One event of a `spawn_blocking`, `/repo/src/dyn_traits/futures/executor.rs` lines 74-99. -/
def Blocking.step (s : Blocking R) : BlockingOp R → Blocking R × BlockingOut R
  | .call =>
      -- `FnMut`: the calls cannot overlap
      if s.running then (s, .gone)
      else match s.closure with
      -- `action.take().expect(…)()`
      | some true => ({ s with closure := some false, running := true }, .started)
      | some false => (s, .panicked)
      | none => (s, .gone)
  | .finish r =>
      if s.running then
        match r with
        -- `let _ = tx.send(action());`
        | some x => ({ s with chan := s.chan.send x, running := false }, .finished r)
        -- `tx` is dropped by the unwinding
        | none => ({ s with chan := s.chan.close, running := false }, .finished r)
      else (s, .gone)
  | .dropClosure =>
      if s.running then (s, .gone)
      else match s.closure with
      | some true => ({ s with chan := s.chan.close, closure := none }, .dropped)
      | some false => ({ s with closure := none }, .dropped)
      | none => (s, .gone)
  | .pollJoin ans =>
      match s.join with
      | some j =>
          -- `rx.await` is the block's value: `Result<R, Canceled>`
          let r := Async.poll (joinBody .ready ans) s.chan j
          ({ s with chan := r.1, join := some r.2.1 }, .join r.2.2)
      | none => (s, .gone)
  | .dropJoin =>
      match s.join with
      | some j => ({ s with chan := dropBlock s.chan j, join := none }, .unit)
      | none => (s, .gone)

/-- Not in the code: a schedule. -/
def Blocking.run (s : Blocking R) : List (BlockingOp R) → Blocking R × List (BlockingOut R)
  | [] => (s, [])
  | op :: ops =>
      let r := s.step op
      let r' := Blocking.run r.1 ops
      (r'.1, r.2 :: r'.2)

/-! ## `block_on` -/

/-- The body of `async { ret = Some(fut.await); }`, `/repo/src/dyn_traits/futures/executor.rs` lines 122-124. -/
def blockBody (F : Fut W τ R) (w : W) (ret : Option R) (t : τ) : Option R × τ × Poll Unit :=
  match F.poll w t with
  | (t, .pending) => (ret, t, .pending)
  | (t, .ready r) => (some r, t, .ready ())
  | (t, .panic) => (ret, t, .panic)

/-- The polls which the executor makes in `dyn_block_on`, before it returns. `/repo/src/dyn_traits/futures/executor.rs` lines 127-129.
-/
def blockPolls (F : Fut W τ R) (ret : Option R) (a : Async τ) : List W → Option R
  | [] => ret
  | w :: ws => let r := Async.poll (blockBody F w) ret a; blockPolls F r.1 r.2.1 ws

/-- `block_on`, `/repo/src/dyn_traits/futures/executor.rs` lines 116-132. -/
def blockOn (F : Fut W τ R) (t : τ) (ws : List W) : Call R :=
  match blockPolls F none (.suspended t) ws with
  | some r => .val r
  | none => .panic

/-! ## The executor of `tokio` -/

/-- What awaiting a `tokio::task::JoinHandle<()>` gives: `JoinError`s are panics or cancellations. (tokio)
`/repo/src/dyn_traits/futures/executor.rs` lines 159-162, 175-181. -/
inductive Joined
  | ok
  | panicked
  | cancelled
deriving DecidableEq, Repr

/-- `dyn_spawn` of `tokio::runtime::Handle`, `/repo/src/dyn_traits/futures/executor.rs` lines 152-166: `into_panic` panics on a
cancellation.  `none`: the handle is pending. -/
def tokioSpawn : Option Joined → Call PollFuture
  | none => dynPoll .pending
  | some .ok => dynPoll (.ready ())
  | some .panicked => dynPoll .panic
  | some .cancelled => dynPoll .panic

/-- `dyn_spawn_blocking`, `/repo/src/dyn_traits/futures/executor.rs` lines 168-185. -/
def tokioSpawnBlocking : Option Joined → Call PollFuture
  | none => dynPoll .pending
  | some .ok => dynPoll (.ready ())
  | some .panicked => dynPoll .panic
  | some .cancelled => dynPoll (.ready ())
end
end Verif.Fut
