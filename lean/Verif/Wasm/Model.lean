import Verif.Js.Closure
/-!
# The JavaScript boundary on wasm

Model of `from_napi_value` on `wasm32`, of the JavaScript functions of `#[ffi_export(js)]` and of
`Closure` of src/js/closures/wasm.rs, over the polyfill `napi-dispatcher/wasm`: a transition system in which
JavaScript calls exported functions, which call JavaScript functions, and so on, to any depth.

Two things differ from Node.js. Buffers are copied to fresh memory, which the `Env` of the call frees. And
JavaScript values are cast to the expected JavaScript type without a check.

Not modelled: `async fn` exports (see `Verif.Js.Async`); threads (wasm has one).
-/
namespace Verif.Wasm
open Text Headers Js

/-! ### Values -/

/-- What a JavaScript value is read as, once cast to `js_sys::Number`, `Boolean`, `JsString`, `Uint8Array`
without a check: napi-dispatcher/wasm/src/values.rs 150, 102, 285, 111. These functions are those of `js_sys`,
not in the repository: `none` is an exception, which Rust does not catch. -/
structure Glue where
  num : Js → Option Num
  bool : Js → Option Bool
  str : Js → Option Text
  bytes : Js → Option (List UInt8)

/-- A raw pointer: an address, or the start of one of the boxes that conversions allocate. Boxes are numbered.
src/js/impls.rs 280-288, src/layout/macros.rs 183-191. -/
inductive WPtr
  | addr (a : Nat)
  | box (r : Nat)
  deriving DecidableEq, Repr

/-- The C values; see `Js.Val`. -/
inductive WVal
  | int (v : Int)
  | float (x : Num)
  | bool (b : Bool)
  | void
  | ptr (p : WPtr)
  | bytes (bs : List UInt8)
  | disc (d : Int)
  | struct (vs : List WVal)

/-- `Result`, or an end without destructors: a panic (`unreachable` on wasm), or an exception that passes
through Rust. The return type of src/js/_mod.rs 40-51. -/
inductive Out (α : Type)
  | ok (a : α)
  | err (e : Err)
  | trap
  deriving Repr

/-- (core) -/
def Out.map {α β : Type} (f : α → β) : Out α → Out β
  | .ok a => .ok (f a)
  | .err e => .err e
  | .trap => .trap

/-- (language) -/
def Out.of {α : Type} : Res α → Out α
  | .ok a => .ok a
  | .err e => .err e
  | .panic => .trap

/-- A cast without check, then a conversion. napi-dispatcher/wasm/src/utils.rs 80-87, /repo/napi-dispatcher/wasm/src/values.rs 191. -/
def cast {α β : Type} (x : Option α) (f : α → Res β) : Out β :=
  match x with
  | none => .trap
  | some a => .of (f a)

section
variable (K : Glue) (E : Env) (b : Nat → Text) (narrow : Num → Num)

/-- `from_napi_value` of the integers: src/js/impls.rs 31-50 (from a `JsNumber`), 81-125 (64 bits: from a
`JsUnknown`, whose type is checked). -/
def intW (k : IntTy) (j : Js) : Out Int :=
  if small E k then cast (K.num j) fun x => fromSmall E k (.num x) else .of (fromInt E k j)

/-- `from_napi_value` of a `{ addr, type }` object, src/js/impls.rs 319-350: `get_named_property` does not
check the types (napi-dispatcher/wasm/src/values.rs 181-192). -/
def ptrObjW (const : Bool) (to : CTy) (j : Js) : Out WPtr :=
  match K.str (prop t!"type" j) with
  | none => .trap
  | some ty =>
      let actual := if const then constify ty else ty
      if actual ≠ ptrType b const to then .err .invalidArg
      else (intW K E .usize (prop t!"addr" j)).map fun a => .addr a.toNat

/-- The result of a conversion, and the contents of the boxes it has allocated and registered in the `Env`
(`__push_drop_glue`, napi-dispatcher/wasm/src/lib.rs 141-148), in order. -/
abbrev Conv (α : Type) := Out α × List (List UInt8)

/-- (language) `?` and what follows; `n` is the number of boxes so far. -/
def Conv.bind {α β : Type} (n : Nat) (c : Conv α) (f : α → Nat → Conv β) : Conv β :=
  match c with
  | (.ok a, boxes) => let d := f a (n + boxes.length); (d.1, boxes ++ d.2)
  | (.err e, boxes) => (.err e, boxes)
  | (.trap, boxes) => (.trap, boxes)

/-- `from_napi_value` of raw pointers, src/js/impls.rs 266-352: a buffer is copied to a new box (ll. 280-288)
before it is checked (ll. 293-310). -/
def ptrW (const : Bool) (to : CTy) (j : Js) (n : Nat) : Conv WPtr :=
  match j with
  | .null => (.ok (.addr 0), [])
  | .buf bytes =>
      if const && isCChar to then ((Out.of (fromBuffer E bytes)).map fun _ => .box n, [bytes])
      else (ptrObjW K E b const to (.buf bytes), [])
  | .obj ps => (ptrObjW K E b const to (.obj ps), [])
  | _ => (.err .invalidArg, [])

mutual
/-- `from_napi_value`, `n` being the number of boxes so far: src/layout/impls.rs 816-822 and
napi-dispatcher/wasm/src/values.rs 97-104 (`bool`), src/js/impls.rs 379-386 (`void`, from any value), 399-406 and
/repo/napi-dispatcher/wasm/src/values.rs 106-112 (`[u8; n]`), src/layout/macros.rs 265-286 and /repo/napi-dispatcher/wasm/src/values.rs 257-287 (enums), 160-227 (structs), and
the functions above. Simplification: a function where a struct is expected is rejected. -/
def fromW : JTy → Js → Nat → Conv WVal
  | .int k, j, _ => ((intW K E k j).map .int, [])
  | .f32, j, _ => ((cast (K.num j) fun x => fromFloat narrow (.num x)).map .float, [])
  | .f64, j, _ => ((cast (K.num j) fun x => fromFloat id (.num x)).map .float, [])
  | .bool, j, _ => ((cast (K.bool j) fun v => .ok v).map .bool, [])
  | .void, _, _ => (.ok .void, [])
  | .ptr const to, j, n => let c := ptrW K E b const to j n; (c.1.map .ptr, c.2)
  | .bytes len, j, _ => ((cast (K.bytes j) fun bs => fromBytes len (.buf bs)).map .bytes, [])
  | .enum variants, j, _ => ((cast (K.str j) fun s => fromEnum variants (.str s)).map .disc, [])
  | .struct sliceRef names fields, j, n =>
      match sliceRef, j with
      | true, .buf bs => (.ok (.struct [.ptr (.box n), .int bs.length, .void]), [bs])
      | true, .null => (.ok (.struct [.ptr (.addr 0), .int 0xbad000, .void]), [])
      | _, _ => if isObject j then let c := propsW names fields j n; (c.1.map .struct, c.2) else (.err .wrongType, [])
/-- src/layout/macros.rs 212-225: the fields in order, the first error returned. -/
def propsW : List Text → List JTy → Js → Nat → Conv (List WVal)
  | name :: names, ty :: tys, j, n =>
      (fromW ty (prop name j) n).bind n fun v n => let c := propsW names tys j n; (c.1.map (v :: ·), c.2)
  | _, _, _, _ => (.ok [], [])
end

/-- The arguments in order, the first error returned: src/proc_macro/ffi_export/fn_/mod.rs 270-279. A call with
another number of arguments is not modelled. -/
def argsW : List JTy → List Js → Nat → Conv (List WVal)
  | ty :: tys, j :: js, n =>
      (fromW K E b narrow ty j n).bind n fun v n => let c := argsW tys js n; (c.1.map (v :: ·), c.2)
  | [], [], _ => (.ok [], [])
  | _, _, _ => (.err .wrongType, [])
end

mutual
/-- The value, the boxes being at the addresses `at_`. (language) -/
def WVal.plain (at_ : Nat → Nat) : WVal → Val
  | .int v => .int v
  | .float x => .float x
  | .bool v => .bool v
  | .void => .void
  | .ptr (.addr a) => .ptr (.addr a)
  | .ptr (.box r) => .ptr (.addr (at_ r))
  | .bytes bs => .bytes bs
  | .disc d => .disc d
  | .struct vs => .struct (plains at_ vs)
/-- See `WVal.plain`. (language) -/
def plains (at_ : Nat → Nat) : List WVal → List Val
  | [] => []
  | v :: vs => v.plain at_ :: plains at_ vs
end

/-! ### Calls -/

/-- An argument of a JavaScript function: `send_ret`, which returns its argument (src/js/closures/wasm.rs
182-192), or a converted value. -/
inductive JsArg
  | identity
  | val (j : Js)

/-- What happens, in order. Not in the code. -/
inductive Ev
  /-- A conversion has allocated box `r`. -/
  | alloc (r : Nat) (bytes : List UInt8)
  /-- An `Env` has freed box `r`. -/
  | free (r : Nat)
  /-- An exported function is called. -/
  | entered (args : List WVal)
  /-- JavaScript gets the result of an exported function, possibly as a promise that is resolved. -/
  | left (promise : Bool) (j : Js)
  /-- JavaScript gets an exception instead. -/
  | threw (e : Err)
  /-- A JavaScript function is called, `this` being `undefined`. -/
  | invoked (args : List JsArg)
  /-- Native code gets the result of a JavaScript function. -/
  | returned (v : WVal)
  /-- The instance has stopped. -/
  | trapped

/-- A call in progress. -/
inductive Frame
  /-- Of an exported function: its return type, whether it is `async_worker`, the contents of the field
  `cleanup` of its `Env` (napi-dispatcher/wasm/src/lib.rs 61-64); and, not in the code, its types, the JavaScript
  arguments and the arguments. -/
  | native (ret : JTy) (worker : Bool) (cleanup : List Nat) (params : List JTy) (js : List Js) (args : List WVal)
  /-- Of a JavaScript function, by `call_trampoline`. -/
  | callback (ret : JTy)

/-- Not in the code. -/
structure State where
  /-- The number of boxes so far. -/
  boxes : Nat := 0
  /-- The innermost call first. -/
  stack : List Frame := []
  dead : Bool := false
  log : List Ev := []

/-- What JavaScript and native code can do; `step` cites the code of each. -/
inductive Op
  /-- JavaScript calls an exported function. -/
  | enter (params : List JTy) (ret : JTy) (worker : Bool) (js : List Js)
  /-- The exported function returns. -/
  | leave (v : WVal)
  /-- Native code calls a JavaScript function; `this` may be null. -/
  | call (null : Bool) (params : List JTy) (ret : JTy) (args : List WVal)
  /-- The JavaScript function returns, or throws. -/
  | finish (r : Option Js)

/-- JavaScript runs: no call is in progress, or the innermost one is of a JavaScript function. (language) -/
def State.inJs (s : State) : Bool :=
  match s.stack with
  | .native .. :: _ => false
  | _ => true

/-- Not in the code: boxes are allocated. -/
def allocs (n : Nat) : List (List UInt8) → List Ev
  | [] => []
  | bs :: rest => .alloc n bs :: allocs (n + 1) rest

/-- The drop glue of an `Env`: the field `cleanup` is a vector, whose items are dropped in order; each frees its
box. napi-dispatcher/wasm/src/lib.rs 58-64, src/js/impls.rs 284-286, src/layout/macros.rs 187-189. -/
def frees (cleanup : List Nat) : List Ev := cleanup.map .free

/-- Not in the code. -/
def State.trap (s : State) (evs : List Ev) : State := { s with dead := true, log := s.log ++ evs ++ [.trapped] }

section
variable (K : Glue) (E : Env) (b : Nat → Text) (narrow : Num → Num) (at_ : Nat → Nat)

/-- The JavaScript function of `#[ffi_export(js)]`, src/proc_macro/ffi_export/fn_/mod.rs 262-283: a new context
(napi-dispatcher/wasm/src/proc_macros/mod.rs 22-31, /repo/napi-dispatcher/wasm/src/lib.rs 120-139), the arguments; an error drops the context. -/
def stepEnter (s : State) (params : List JTy) (ret : JTy) (worker : Bool) (js : List Js) : State :=
  let c := argsW K E b narrow params js s.boxes
  let cleanup := List.range' s.boxes c.2.length
  let evs := allocs s.boxes c.2
  let s := { s with boxes := s.boxes + c.2.length }
  match c.1 with
  | .ok args => { s with stack := .native ret worker cleanup params js args :: s.stack, log := s.log ++ evs ++ [.entered args] }
  | .err e => { s with log := s.log ++ evs ++ frees cleanup ++ [.threw e] }
  | .trap => s.trap evs

/-- The exported function returns, src/proc_macro/ffi_export/fn_/mod.rs 329-334 (`async_worker`: 316-325, with
src/js/_mod.rs 208-219): its result is converted, then the context is dropped. -/
def stepLeave (s : State) (v : WVal) : State :=
  match s.stack with
  | .native ret worker cleanup _ _ _ :: stack =>
      match toJs E b ret (v.plain at_) with
      | .ok j => { s with stack, log := s.log ++ frees cleanup ++ [.left worker j] }
      | .err e => { s with stack, log := s.log ++ frees cleanup ++ [.threw e] }
      | .panic => s.trap []
  | _ => s

/-- `call_trampoline` until the JavaScript function runs, src/js/closures/wasm.rs 149-203; the call itself:
napi-dispatcher/wasm/src/values.rs 118-132. -/
def stepCall (s : State) (null : Bool) (params : List JTy) (ret : JTy) (args : List WVal) : State :=
  match s.stack with
  | .native .. :: _ =>
      if null then s.trap []
      else match toAll E b params (plains at_ args) with
      | .ok js => { s with stack := .callback ret :: s.stack, log := s.log ++ [.invoked (.identity :: js.map .val)] }
      | _ => s.trap []
  | _ => s

/-- `call_trampoline` once the JavaScript function is done, src/js/closures/wasm.rs 204-209: the result is
converted; an error or an exception panics; then `env` (l. 172) is dropped, and the function returns. -/
def stepFinish (s : State) (r : Option Js) : State :=
  match s.stack with
  | .callback ret :: stack =>
      match r with
      | none => s.trap []
      | some j =>
          let c := fromW K E b narrow ret j s.boxes
          let cleanup := List.range' s.boxes c.2.length
          let evs := allocs s.boxes c.2
          match c.1 with
          | .ok v => { s with boxes := s.boxes + c.2.length, stack, log := s.log ++ evs ++ frees cleanup ++ [.returned v] }
          | _ => State.trap { s with boxes := s.boxes + c.2.length } evs
  | _ => s

/-- One step; the functions called carry the citations. -/
def step (s : State) (op : Op) : State :=
  if s.dead then s
  else match op with
  | .enter params ret worker js => if s.inJs then stepEnter K E b narrow s params ret worker js else s
  | .leave v => stepLeave E b at_ s v
  | .call null params ret args => stepCall E b at_ s null params ret args
  | .finish r => stepFinish K E b narrow s r

/-- Not in the code: any history. -/
def run (ops : List Op) : State := ops.foldl (step K E b narrow at_) {}
end

end Verif.Wasm
