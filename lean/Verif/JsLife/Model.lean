/-!
# The life of JavaScript callbacks held by native code

Model of what is allocated for a `Closure` (src/js/closures/node_js.rs and /repo/src/js/closures/wasm.rs) and of what releases it:
a history of any operations on any number of closures, by any threads, with the event loop and the garbage
collector of JavaScript in between.

From N-API's documentation: a reference with a positive count keeps its function alive until it is deleted;
a thread-safe function keeps its function alive until it is closed, which happens once it has been released
and its queue is empty; a thread-safe function is referenced when it is created, and the event loop goes on
as long as one that is referenced is not closed. napi-rs releases (`napi_release_threadsafe_function`) a
`ThreadsafeFunction` that is dropped. wasm-bindgen keeps a value alive until its handle is dropped.

The arguments and results of the calls are not modelled here, see `Verif.Js.Closure`.
-/
namespace Verif.JsLife

/-- Which of the two implementations: src/js/closures/mod.rs, `node_js` or `wasm`. -/
inductive Host | node | wasm
deriving DecidableEq

/-- `detached`: the `Synchronicity` parameter, src/js/closures/node_js.rs 48-54. `main`: the JavaScript
thread, 80-82. `limit`: the count above which `Arc::clone` aborts (`isize::MAX` in the standard library). -/
structure Cfg where
  host : Host
  detached : Bool
  main : Nat
  limit : Nat

/-- An N-API reference, src/js/closures/node_js.rs 86 `raw_ref_handle`. On wasm: the handle of the function,
src/js/closures/wasm.rs 17 `js_fun`. -/
structure Ref where
  fn : Nat := 0
  live : Bool := false

/-- A thread-safe function of N-API, src/js/closures/node_js.rs 203-209 `ts_fun`. -/
structure Tsfn where
  fn : Nat := 0
  referenced : Bool := false
  released : Bool := true
  closed : Bool := true
  /-- The calls to be made, the next one first. -/
  queue : List Nat := []

/-- A `Closure_`, src/js/closures/node_js.rs 186-216, or a `Closure`, src/js/closures/wasm.rs 16-19. `boxed`:
it is in an `Arc`, with the count `strong`. -/
structure Obj where
  fn : Nat := 0
  ref : Nat := 0
  tsfn : Nat := 0
  boxed : Bool := false
  strong : Nat := 0
  freed : Bool := true

/-- What happens, as seen from outside. Not in the code. -/
inductive Ev
  /-- `napi_create_reference` has made the reference `r` to the function `f`. -/
  | reference (r f : Nat)
  /-- The reference `r` is deleted, by thread `t`. -/
  | deleted (r t : Nat)
  /-- Closure `c` for the function `f` exists; its reference is `r`. -/
  | created (c f r : Nat)
  /-- The conversion from JavaScript has failed. -/
  | refused
  | panicked
  /-- The closure is now behind an `Arc`, whose count the caller owns. -/
  | shared (c : Nat)
  | retained (c : Nat)
  /-- One handle of the closure is gone. -/
  | released (c : Nat)
  /-- The event loop has been told, by thread `t`, to wait for closure `c`, or not to. -/
  | waits (c : Nat) (b : Bool) (t : Nat)
  /-- Call `n`, of closure `c`, has been queued. -/
  | queued (n c : Nat)
  /-- Call `n` is made: JavaScript runs function `f`. -/
  | invoked (n f : Nat)
  /-- JavaScript got the function back. -/
  | returned (c f : Nat)
  | aborted
  /-- Memory, a reference or a function that does not exist any more is used. -/
  | bad
deriving DecidableEq

/-- Not in the code: all references, thread-safe functions and closures ever made, by number. -/
structure State where
  refs : Nat → Ref := fun _ => {}
  nrefs : Nat := 0
  tsfns : Nat → Tsfn := fun _ => {}
  ntsfns : Nat := 0
  objs : Nat → Obj := fun _ => {}
  nobjs : Nat := 0
  ncalls : Nat := 0
  /-- The functions that have been collected. -/
  gone : List Nat := []
  dead : Bool := false
  /-- All events so far, the latest first. -/
  log : List Ev := []

/-- Not in the code. -/
def upd {α : Type} (f : Nat → α) (i : Nat) (a : α) : Nat → α := fun j => if j = i then a else f j

/-- What the program, the threads, N-API and JavaScript can do next; `step` cites the code of each. -/
inductive Op
  /-- JavaScript passes function `f`; the flags say which of the three calls of N-API succeed. -/
  | create (f : Nat) (reference threadsafe unref : Bool)
  /-- `make_nodejs_wait_for_this_to_be_dropped(b)`; the flag says whether N-API's call succeeds. -/
  | wait (c : Nat) (b : Bool) (t : Nat) (ok : Bool)
  /-- `Arc::new`, `into_raw_parts`. -/
  | share (c : Nat)
  /-- `retain` of the raw parts, or `Arc::clone`. -/
  | retain (c : Nat)
  /-- `release` of the raw parts, or the drop of an `Arc`. -/
  | release (c t : Nat)
  /-- The drop of a closure that is not behind an `Arc`. -/
  | drop (c t : Nat)
  | call (c t : Nat)
  /-- Conversion to JavaScript. -/
  | giveBack (c : Nat)
  /-- The event loop looks at a thread-safe function. -/
  | turn (k : Nat)
  /-- JavaScript does not use the function any more, the garbage collector considers it. -/
  | gc (f : Nat)

/-- `Drop for ThreadTiedJsFunction`, src/js/closures/node_js.rs 113-136. -/
def deleteRef (s : State) (r t : Nat) : State :=
  if (s.refs r).live then
    { s with refs := upd s.refs r { s.refs r with live := false }, log := .deleted r t :: s.log }
  else { s with log := .bad :: s.log }

/-- The drop of a `ThreadsafeFunction` (napi-rs). -/
def releaseTs (s : State) (k : Nat) : State :=
  if (s.tsfns k).released then { s with log := .bad :: s.log }
  else { s with tsfns := upd s.tsfns k { s.tsfns k with released := true } }

/-- JavaScript runs `f`: src/js/closures/node_js.rs 731-752, or N-API for a queued call. -/
def invoke (s : State) (n f : Nat) : State :=
  if f ∈ s.gone then { s with log := .bad :: s.log } else { s with log := .invoked n f :: s.log }

/-- The fields are dropped in the order of their declaration: src/js/closures/node_js.rs 189, 203;
src/js/closures/wasm.rs 17. -/
def dropObj (C : Cfg) (s : State) (c t : Nat) : State :=
  let o := s.objs c
  let s := { s with objs := upd s.objs c { o with freed := true, strong := 0 } }
  let s := deleteRef s o.ref t
  match C.host with
  | .node => releaseTs s o.tsfn
  | .wasm => s

/-- A new reference, src/js/closures/node_js.rs 99-110. -/
def newRef (s : State) (f : Nat) : State :=
  { s with refs := upd s.refs s.nrefs { fn := f, live := true }, nrefs := s.nrefs + 1,
           log := .reference s.nrefs f :: s.log }

/-- A new thread-safe function, src/js/closures/node_js.rs 443-452. -/
def newTsfn (s : State) (f : Nat) : State :=
  { s with tsfns := upd s.tsfns s.ntsfns { fn := f, referenced := true, released := false, closed := false },
           ntsfns := s.ntsfns + 1 }

/-- The value that is returned, src/js/closures/node_js.rs 459-464; /repo/src/js/closures/wasm.rs 37-40. -/
def newObj (s : State) (f r k : Nat) : State :=
  { s with objs := upd s.objs s.nobjs { fn := f, ref := r, tsfn := k, strong := 1, freed := false },
           nobjs := s.nobjs + 1, log := .created s.nobjs f r :: s.log }

/-- `from_napi_value`: src/js/closures/node_js.rs 348-465 (an error of `create` or `unref` returns early:
the locals are dropped, the latest first), /repo/src/js/closures/wasm.rs 33-41. -/
def create (C : Cfg) (s : State) (f : Nat) (reference threadsafe unref : Bool) : State :=
  match C.host with
  | .wasm => let r := s.nrefs; newObj (newRef s f) f r 0
  | .node =>
    if !reference then { s with log := .panicked :: s.log }
    else
      let r := s.nrefs
      let s := newRef s f
      if !threadsafe then
        let s := deleteRef s r C.main
        { s with log := .refused :: s.log }
      else
        let k := s.ntsfns
        let s := newTsfn s f
        if !unref then
          let s := deleteRef (releaseTs s k) r C.main
          { s with log := .refused :: s.log }
        else
          let s := { s with tsfns := upd s.tsfns k { s.tsfns k with referenced := false } }
          newObj s f r k

/-- Each step; `call`: src/js/closures/node_js.rs 586-643, 647, 690-703, 731-752, 140-158; /repo/src/js/closures/wasm.rs 157-195.
`wait`: /repo/src/js/closures/node_js.rs 478-491, /repo/src/js/closures/wasm.rs 77-83. `share`, `retain`, `release`: /repo/src/js/closures/node_js.rs 509-552,
/repo/src/js/closures/wasm.rs 103-144. `giveBack`: /repo/src/js/closures/node_js.rs 335-345 (`unimplemented!`, the closure is dropped by the unwinding),
/repo/src/js/closures/wasm.rs 43-49. -/
def step (C : Cfg) (s : State) (op : Op) : State :=
  if s.dead then s else
  match op with
  | .create f a b u => if f ∈ s.gone then s else create C s f a b u
  | .wait c b t ok =>
      let o := s.objs c
      if o.freed then { s with log := .bad :: s.log }
      else match C.host with
        | .wasm => s
        | .node =>
          if !ok then s
          else { s with tsfns := upd s.tsfns o.tsfn { s.tsfns o.tsfn with referenced := b },
                        log := .waits c b t :: s.log }
  | .share c =>
      let o := s.objs c
      if o.freed then { s with log := .bad :: s.log }
      else { s with objs := upd s.objs c { o with boxed := true }, log := .shared c :: s.log }
  | .retain c =>
      let o := s.objs c
      if o.freed || !o.boxed then { s with log := .bad :: s.log }
      else if C.limit < o.strong then { s with dead := true, log := .aborted :: s.log }
      else { s with objs := upd s.objs c { o with strong := o.strong + 1 }, log := .retained c :: s.log }
  | .release c t =>
      let o := s.objs c
      if o.freed || !o.boxed then { s with log := .bad :: s.log }
      else if o.strong = 1 then
        let s := dropObj C s c t
        { s with log := .released c :: s.log }
      else { s with objs := upd s.objs c { o with strong := o.strong - 1 }, log := .released c :: s.log }
  | .drop c t =>
      let o := s.objs c
      if o.freed || o.boxed then { s with log := .bad :: s.log }
      else
        let s := dropObj C s c t
        { s with log := .released c :: s.log }
  | .call c t =>
      let o := s.objs c
      if o.freed then { s with log := .bad :: s.log }
      else
        let n := s.ncalls
        let s := { s with ncalls := n + 1 }
        if C.host = .node ∧ (C.detached ∨ t ≠ C.main) then
          { s with tsfns := upd s.tsfns o.tsfn { s.tsfns o.tsfn with queue := (s.tsfns o.tsfn).queue ++ [n] },
                   log := .queued n c :: s.log }
        else if (s.refs o.ref).live then invoke s n (s.refs o.ref).fn
        else { s with log := .bad :: s.log }
  | .giveBack c =>
      let o := s.objs c
      if o.freed || o.boxed then { s with log := .bad :: s.log }
      else match C.host with
        | .wasm =>
          { s with objs := upd s.objs c { o with freed := true, strong := 0 },
                   refs := upd s.refs o.ref { s.refs o.ref with live := false },
                   log := .returned c o.fn :: .released c :: .deleted o.ref C.main :: s.log }
        | .node =>
          let s := dropObj C s c C.main
          { s with log := .panicked :: .released c :: s.log }
  | .turn k =>
      let f := s.tsfns k
      if f.closed then s
      else match f.queue with
        | n :: q => invoke { s with tsfns := upd s.tsfns k { f with queue := q } } n f.fn
        | [] => if f.released then { s with tsfns := upd s.tsfns k { f with closed := true } } else s
  | .gc f =>
      if (List.range s.nrefs).any (fun r => (s.refs r).live && (s.refs r).fn == f) ||
          (List.range s.ntsfns).any (fun k => !(s.tsfns k).closed && (s.tsfns k).fn == f) then s
      else { s with gone := f :: s.gone }

/-- A history, from the start. Not in the code. -/
def run (C : Cfg) (ops : List Op) : State := ops.foldl (step C) {}

end Verif.JsLife
