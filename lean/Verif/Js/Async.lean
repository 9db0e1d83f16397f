import Verif.Js.Conv
import Verif.Fut.Model
/-!
# Asynchronous exports to JavaScript

Model of the JavaScript functions of `#[ffi_export(js(async_worker))]` (src/proc_macro/ffi_export/fn_/mod.rs
286-326, src/js/_mod.rs 280-362) and of `#[ffi_export(js, executor = …)] async fn`
(src/proc_macro/ffi_export/fn_/async_fn.rs 133-315, src/js/_mod.rs 221-252): transition systems that any
scheduler may drive. Promises, Node's worker pool (`napi::Env::spawn`) and the runtime that polls the futures
(`execute_tokio_future`, `future_to_promise`) are not in the repository: they are modelled from the
documentation of N-API and napi-rs.

A panic of an exported function aborts the process (C53); it ends the execution and is not an operation here.
-/
namespace Verif.Js
open Headers

/-- The types of an exported function. src/proc_macro/ffi_export/fn_/mod.rs 261-284. -/
structure Sig where
  E : Env
  b : Nat → Text
  narrow : Num → Num
  params : List JTy
  ret : JTy

mutual
/-- Not in the code: what becomes of a value when JavaScript changes the contents of the buffers that it
points to (or when they are collected), byte by byte. -/
def Val.scribble (f : Nat → UInt8 → UInt8) : Val → Val
  | .ptr (.mem bs) => .ptr (.mem (bs.mapIdx f))
  | .struct vs => .struct (scribbles f vs)
  | v => v
/-- Not in the code: see `Val.scribble`. -/
def scribbles (f : Nat → UInt8 → UInt8) : List Val → List Val
  | [] => []
  | v :: vs => v.scribble f :: scribbles f vs
end

/-- What happens, in order. Calls that return a promise are numbered. Not in the code. -/
inductive AEv
  /-- JavaScript calls the export with `js`, which throws. -/
  | threw (js : List Js)
  /-- JavaScript calls the export with `js` and gets the `i`-th promise. -/
  | promised (i : Nat) (js : List Js)
  /-- The function (or the statements before `ffi_await!`) of call `i` starts. -/
  | called (i : Nat) (args : List Val)
  /-- The function or the future of call `i` has completed. -/
  | returned (i : Nat) (v : Val)
  /-- The pool runs the task again: the function is not called. -/
  | refused (i : Nat)
  /-- The promise is resolved (`ok`) or rejected. -/
  | settled (i : Nat) (r : Res Js)

/-! ## `js(async_worker)` on Node.js

On wasm (src/proc_macro/ffi_export/fn_/mod.rs 316-325) the function is called at once, and its result returned in
a promise that is already resolved: `callExport`. -/

/-- `AsyncWorkerTask`, src/js/_mod.rs 280-285, and what napi-rs keeps beside it: the result of `compute`, and
whether the promise is settled. -/
structure Work where
  /-- `on_worker`: the closure of src/proc_macro/ffi_export/fn_/mod.rs 303-310 is its captured arguments. -/
  onWorker : Option (List Val)
  /-- `compute` is calling the function. -/
  running : Bool
  /-- The result of `compute`. -/
  output : Option (Res Val)
  settled : Bool

/-- All calls of the export so far. Not in the code. -/
structure Pool where
  works : List Work := []
  log : List AEv := []

/-- What JavaScript, the worker pool and the function can do; `Pool.step` cites the code of each. -/
inductive PoolOp
  | call (js : List Js)
  | compute (i : Nat)
  | finish (i : Nat) (v : Val)
  | settle (i : Nat)
  | scribble (i : Nat) (f : Nat → UInt8 → UInt8)

/-- Not in the code. -/
def Pool.put (s : Pool) (i : Nat) (w : Work) (evs : List AEv) : Pool := ⟨s.works.set i w, s.log ++ evs⟩

/-- One step. -/
def Pool.step (S : Sig) (s : Pool) : PoolOp → Pool
  -- src/proc_macro/ffi_export/fn_/mod.rs 270-283: the arguments are converted at once; then
  -- `from_task_spawned_on_worker_pool`, src/js/_mod.rs 343-361, and `spawn`, 328-339. That `napi::Env::spawn`
  -- itself fails is not modelled.
  | .call js =>
      match fromArgs S.E S.b S.narrow S.params js with
      | .ok args => ⟨s.works ++ [⟨some args, false, none, false⟩], s.log ++ [.promised s.works.length js]⟩
      | _ => { s with log := s.log ++ [.threw js] }
  -- `compute`, src/js/_mod.rs 299-309: the closure is taken. `&mut self`: calls do not overlap. Nothing
  -- prevents the pool from calling it again.
  | .compute i =>
      match s.works[i]? with
      | some w =>
          if w.running then s
          else match w.onWorker with
          | some args => s.put i { w with onWorker := none, running := true } [.called i args]
          | none => s.put i { w with output := some (.err .genericFailure) } [.refused i]
      | none => s
  -- The function returns to the closure, and `compute` to the pool: src/js/_mod.rs 308, 355.
  | .finish i v =>
      match s.works[i]? with
      | some w => if w.running then s.put i { w with running := false, output := some (.ok v) } [.returned i v] else s
      | none => s
  -- `resolve`, src/js/_mod.rs 311-318, 356-359, on the JavaScript thread once `compute` has returned; napi-rs
  -- settles the promise with its result, or with the error of `compute`. It consumes the task.
  | .settle i =>
      match s.works[i]? with
      | some w =>
          match w.settled || w.running, w.output with
          | false, some r => s.put i { w with settled := true } [.settled i (r.bind (toJs S.E S.b S.ret))]
          | _, _ => s
      | none => s
  -- JavaScript has kept its buffers, or has not: nothing keeps them alive or unchanged until the function is
  -- called (src/js/impls.rs 282-302, src/proc_macro/ffi_export/fn_/mod.rs 291-311).
  | .scribble i f =>
      match s.works[i]? with
      | some w => s.put i { w with onWorker := w.onWorker.map (scribbles f) } []
      | none => s

/-- A schedule. -/
def Pool.run (S : Sig) (s : Pool) (ops : List PoolOp) : Pool := ops.foldl (Pool.step S) s

/-! ## `async fn` -/

/-- The exported `async fn`: the statements before `ffi_await!`, which compute what the future captures
(src/proc_macro/ffi_export/fn_/async_fn.rs 282-295; `none`: they panic, which napi-rs turns into an exception), and the future. -/
structure AsyncFn (W τ : Type) where
  prelude : List Val → Option τ
  fut : Fut.Fut W τ Val

/-- A future that has been spawned, and its promise. src/js/_mod.rs 221-252. -/
structure Spawned (τ : Type) where
  fut : Fut.Async τ
  output : Option Val
  settled : Bool

/-- All calls of the export so far. Not in the code. -/
structure Loop (τ : Type) where
  tasks : List (Spawned τ) := []
  log : List AEv := []

/-- What JavaScript and the runtime can do; `Loop.step` cites the code of each. -/
inductive LoopOp (W : Type)
  | call (js : List Js)
  | poll (i : Nat) (w : W)
  | settle (i : Nat)

section
variable {W τ : Type}

/-- Not in the code. -/
def Loop.put (s : Loop τ) (i : Nat) (t : Spawned τ) (evs : List AEv) : Loop τ := ⟨s.tasks.set i t, s.log ++ evs⟩

/-- One step. -/
def Loop.step (S : Sig) (F : AsyncFn W τ) (s : Loop τ) : LoopOp W → Loop τ
  -- src/proc_macro/ffi_export/fn_/async_fn.rs 279-313: the arguments are converted, then the statements before `ffi_await!` run, then the
  -- future is spawned.
  | .call js =>
      match fromArgs S.E S.b S.narrow S.params js with
      | .ok args =>
          match F.prelude args with
          | some t => ⟨s.tasks ++ [⟨.suspended t, none, false⟩],
              s.log ++ [.promised s.tasks.length js, .called s.tasks.length args]⟩
          | none => { s with log := s.log ++ [.threw js] }
      | _ => { s with log := s.log ++ [.threw js] }
  -- The `async` block of src/js/_mod.rs 235-239 or 246, polled by the runtime; /repo/src/proc_macro/ffi_export/fn_/async_fn.rs 225-248.
  | .poll i w =>
      match s.tasks[i]? with
      | some t =>
          match Fut.Async.poll (fun (_ : Unit) x => ((), F.fut.poll w x)) () t.fut with
          | (_, f, .ready v) => s.put i { t with fut := f, output := some v } [.returned i v]
          | (_, f, _) => s.put i { t with fut := f } []
      | none => s
  -- src/js/_mod.rs 237-238 or 247: the output is converted and settles the promise.
  | .settle i =>
      match s.tasks[i]? with
      | some t =>
          match t.settled, t.output with
          | false, some v => s.put i { t with settled := true } [.settled i (toJs S.E S.b S.ret v)]
          | _, _ => s
      | none => s

/-- A schedule. -/
def Loop.run (S : Sig) (F : AsyncFn W τ) (s : Loop τ) (ops : List (LoopOp W)) : Loop τ := ops.foldl (Loop.step S F) s
end

end Verif.Js
