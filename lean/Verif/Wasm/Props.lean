import Verif.Wasm.RunLemmas
import Verif.Js.AsyncSpec
/-!
# Properties of the JavaScript boundary on wasm

`run K E b narrow at_ ops` is the state after any history `ops`: JavaScript calls exported functions, which call
JavaScript functions, which call exported functions, and so on. `K` is what `js_sys` makes of values of
unexpected types, `at_` where the boxes that hold copies of JavaScript buffers are.
-/
namespace Verif.Wasm
open Text Headers Js

variable (K : Glue) (E : Env) (b : Nat → Text) (narrow : Num → Num) (at_ : Nat → Nat)

/-! ### Memory -/

/-- C79: whatever the history, no box is allocated twice, freed twice, or freed without being allocated. -/
theorem C79_memory (ops : List Op) : Safe (run K E b narrow at_ ops).log := (inv_run ops).fine.safe

/-- C79: unless the instance has stopped, nothing is left allocated once no call is in progress. -/
theorem C79_no_leak (ops : List Op) (hs : (run K E b narrow at_ ops).stack = []) (ht : Ev.trapped ∉ (run K E b narrow at_ ops).log) (r : Nat) :
    holds (run K E b narrow at_ ops).log r = none := by
  have h := inv_run (K := K) (E := E) (b := b) (narrow := narrow) (at_ := at_) ops
  have hd : (run K E b narrow at_ ops).dead = false := by
    cases hd : (run K E b narrow at_ ops).dead
    · rfl
    · exact absurd (h.dead.mp hd) ht
  have := h.owned hd r
  rw [hs] at this
  simpa using this

/-- C79: as long as a call of an exported function is in progress, whatever else has been called meanwhile, each
of its arguments can be read; and they are what JavaScript has passed, if JavaScript has passed values of the
expected types. -/
theorem C79_arguments (ops : List Op) {ret : JTy} {worker : Bool} {cleanup : List Nat} {params : List JTy} {js : List Js} {args : List WVal}
    (h : Frame.native ret worker cleanup params js args ∈ (run K E b narrow at_ ops).stack) :
    ∃ vals, reads (holds (run K E b narrow at_ ops).log) args = some vals ∧
      (K.Faithful → TypedArgs E params js → fromArgs E b narrow params js = .ok vals) := by
  obtain ⟨vals, h1, h2⟩ := (inv_run ops).frames _ h
  exact ⟨vals, h1 _ fun _ _ => rfl, h2⟩

theorem run_snoc (ops : List Op) (op : Op) : run K E b narrow at_ (ops ++ [op]) = step K E b narrow at_ (run K E b narrow at_ ops) op := by
  simp [run]

theorem alive {ops : List Op} (ht : Ev.trapped ∉ (run K E b narrow at_ ops).log) : (run K E b narrow at_ ops).dead = false := by
  cases hd : (run K E b narrow at_ ops).dead
  · rfl
  · exact absurd ((inv_run ops).dead.mp hd) ht

theorem entered_allocs (n : Nat) (bx : List (List UInt8)) (args : List WVal) : Ev.entered args ∉ allocs n bx := by
  induction bx generalizing n with
  | nil => simp [allocs]
  | cons b bs ih => simp [allocs, ih]

/-! ### Exported functions -/

/-- C79: JavaScript calls an exported function with values of the expected types. The native function gets
what it would get on the other targets; if it would not be called there, JavaScript gets the same error, the
function is not called, and memory is as before. -/
theorem C79_call (hK : K.Faithful) (ops : List Op) (params : List JTy) (ret : JTy) (worker : Bool) (js : List Js)
    (ht : Ev.trapped ∉ (run K E b narrow at_ ops).log) (hj : (run K E b narrow at_ ops).inJs = true) (hty : TypedArgs E params js) :
    let s := run K E b narrow at_ ops
    let s' := run K E b narrow at_ (ops ++ [.enter params ret worker js])
    (∀ vals, fromArgs E b narrow params js = .ok vals → ∃ evs cleanup args, s'.log = s.log ++ evs ++ [.entered args] ∧
      s'.stack = .native ret worker cleanup params js args :: s.stack ∧ reads (holds s'.log) args = some vals) ∧
    (∀ e, fromArgs E b narrow params js = .err e → ∃ evs, s'.log = s.log ++ evs ++ [.threw e] ∧ (∀ args, Ev.entered args ∉ evs) ∧
      s'.stack = s.stack ∧ ∀ r, holds s'.log r = holds s.log r) := by
  have hd := alive K E b narrow at_ ht
  have hinv := inv_run (K := K) (E := E) (b := b) (narrow := narrow) (at_ := at_) ops
  have hinv' := inv_run (K := K) (E := E) (b := b) (narrow := narrow) (at_ := at_) (ops ++ [.enter params ret worker js])
  dsimp only
  rw [run_snoc] at hinv' ⊢
  generalize run K E b narrow at_ ops = s at *
  have he : step K E b narrow at_ s (.enter params ret worker js) = stepEnter K E b narrow s params ret worker js := by
    simp [step, hd, hj]
  rw [he] at hinv' ⊢
  have hg := argsW_typed (b := b) (narrow := narrow) hK params js hty s.boxes
  refine ⟨fun vals hv => ?_, fun e hv => ?_⟩
  · rw [hv] at hg
    obtain ⟨args, ha, -⟩ := hg
    have hst : (stepEnter K E b narrow s params ret worker js).stack =
        .native ret worker (List.range' s.boxes (argsW K E b narrow params js s.boxes).2.length) params js args :: s.stack := by
      simp only [stepEnter, ha]
    refine ⟨allocs s.boxes (argsW K E b narrow params js s.boxes).2, _, args, by simp only [stepEnter, ha], hst, ?_⟩
    obtain ⟨vals', h1, h2⟩ := hinv'.frames _ (by rw [hst]; exact List.mem_cons_self ..)
    have := h2 hK hty
    rw [hv] at this
    cases this
    exact h1 _ fun _ _ => rfl
  · rw [hv] at hg
    have ha : (argsW K E b narrow params js s.boxes).1 = .err e := hg
    have hst : (stepEnter K E b narrow s params ret worker js).stack = s.stack := by simp only [stepEnter, ha]
    refine ⟨allocs s.boxes (argsW K E b narrow params js s.boxes).2 ++ frees (List.range' s.boxes (argsW K E b narrow params js s.boxes).2.length),
      by simp only [stepEnter, ha, List.append_assoc], fun args => ?_, hst, fun r => ?_⟩
    · simp [entered_allocs, frees]
    · simp only [stepEnter, ha]
      rw [holds_quiet _ rfl, holds_frees, holds_allocs]
      simp only [List.mem_range'_1]
      by_cases hr : s.boxes ≤ r ∧ r < s.boxes + (argsW K E b narrow params js s.boxes).2.length
      · rw [if_pos hr, fine_holds hinv.fine r hr.1]
      · rw [if_neg hr, if_neg hr]

/-- C79: the exported function returns. JavaScript gets the converted result, as a promise if the function is
`async_worker`; all the memory that the call had allocated is freed, and no other. -/
theorem C79_return (ops : List Op) (v : WVal) {ret : JTy} {worker : Bool} {cleanup : List Nat} {params : List JTy} {js : List Js}
    {args : List WVal} {stack : List Frame} (hs : (run K E b narrow at_ ops).stack = .native ret worker cleanup params js args :: stack)
    (ht : Ev.trapped ∉ (run K E b narrow at_ ops).log) {j : Js} (hv : toJs E b ret (v.plain at_) = .ok j) :
    let s := run K E b narrow at_ ops
    let s' := run K E b narrow at_ (ops ++ [.leave v])
    ∃ evs, s'.log = s.log ++ evs ++ [.left worker j] ∧ s'.stack = stack ∧
      ∀ r, holds s'.log r = if r ∈ cleanup then none else holds s.log r := by
  have hd := alive K E b narrow at_ ht
  dsimp only
  rw [run_snoc]
  generalize run K E b narrow at_ ops = s at *
  have he : step K E b narrow at_ s (.leave v) = { s with stack, log := s.log ++ frees cleanup ++ [.left worker j] } := by
    simp only [step, hd, stepLeave, hs, hv]; rfl
  rw [he]
  refine ⟨frees cleanup, rfl, rfl, fun r => ?_⟩
  dsimp only
  rw [holds_quiet _ rfl, holds_frees]

/-! ### JavaScript functions -/

/-- C79: native code calls a JavaScript function. The function runs at once, with a first argument that it may
call to return its result, then the converted arguments, as many and in the same order. -/
theorem C79_callback_arguments (ops : List Op) (params : List JTy) (ret : JTy) (args : List WVal)
    (hs : (run K E b narrow at_ ops).inJs = false) (ht : Ev.trapped ∉ (run K E b narrow at_ ops).log) {js : List Js}
    (hj : toAll E b params (plains at_ args) = .ok js) :
    (run K E b narrow at_ (ops ++ [.call false params ret args])).log = (run K E b narrow at_ ops).log ++ [.invoked (.identity :: js.map .val)] ∧
    js.length = args.length ∧
    ∀ (i : Nat) (ty : JTy) (v : WVal) (j : Js), params[i]? = some ty → args[i]? = some v → js[i]? = some j → toJs E b ty (v.plain at_) = .ok j := by
  have hd := alive K E b narrow at_ ht
  rw [run_snoc]
  generalize run K E b narrow at_ ops = s at *
  have hp : ∀ l : List WVal, plains at_ l = l.map (WVal.plain at_) := by
    intro l; induction l with
    | nil => simp [plains]
    | cons x xs ih => simp [plains, ih]
  refine ⟨?_, ?_⟩
  · simp only [State.inJs] at hs
    split at hs
    · rename_i hst
      simp [step, hd, stepCall, hst, hj]
    · cases hs
  · rw [hp] at hj
    clear hs ht hd
    induction params generalizing args js with
    | nil =>
      cases args with
      | nil => cases hj; exact ⟨rfl, fun i ty v j h => by simp at h⟩
      | cons v vs => cases hj
    | cons ty tys ih =>
      cases args with
      | nil => cases hj
      | cons v vs =>
        rw [List.map_cons, toAll] at hj
        cases h1 : toJs E b ty (v.plain at_) with
        | ok j =>
          cases h2 : toAll E b tys (vs.map (WVal.plain at_)) with
          | ok js' =>
            rw [h1, h2] at hj
            cases hj
            obtain ⟨e1, e2⟩ := ih vs h2
            refine ⟨by simp [e1], fun i ty' v' j' a1 a2 a3 => ?_⟩
            cases i with
            | zero => simp at a1 a2 a3; subst a1 a2 a3; exact h1
            | succ i => simp at a1 a2 a3; exact e2 i ty' v' j' a1 a2 a3
          | err e => rw [h1, h2] at hj; cases hj
          | panic => rw [h1, h2] at hj; cases hj
        | err e => rw [h1] at hj; cases hj
        | panic => rw [h1] at hj; cases hj

mutual
theorem fromW_no_box : ∀ (ty : JTy) (j : Js) (n : Nat), ty.takesBuffer = false → (fromW K E b narrow ty j n).2 = []
  | .int k, j, n, _ => by rw [fromW]
  | .f32, j, n, _ => by rw [fromW]
  | .f64, j, n, _ => by rw [fromW]
  | .bool, j, n, _ => by rw [fromW]
  | .void, j, n, _ => by rw [fromW]
  | .bytes _, j, n, _ => by rw [fromW]
  | .enum _, j, n, _ => by rw [fromW]
  | .ptr const to, j, n, h => by
    rw [fromW]
    have hc : (const && isCChar to) = false := by
      cases const <;> cases to <;> simp_all [JTy.takesBuffer, isCChar]
    unfold ptrW
    cases j <;> simp [hc]
  | .struct true names fields, j, n, h => by simp [JTy.takesBuffer] at h
  | .struct false names fields, j, n, h => by
    simp only [JTy.takesBuffer, Bool.false_or] at h
    rw [fromW] <;> simp
    split
    · exact propsW_no_box names fields j n h
    · rfl
theorem propsW_no_box : ∀ (names : List Text) (tys : List JTy) (j : Js) (n : Nat), takeBuffer tys = false → (propsW K E b narrow names tys j n).2 = []
  | name :: names, ty :: tys, j, n, h => by
    simp only [takeBuffer, Bool.or_eq_false_iff] at h
    rw [propsW]
    have h1 := fromW_no_box ty (prop name j) n h.1
    generalize fromW K E b narrow ty (prop name j) n = c at h1
    obtain ⟨o, bx⟩ := c
    subst h1
    cases o <;> simp only [Conv.bind, List.nil_append]
    exact propsW_no_box names tys j _ h.2
  | [], _, _, _, _ => by rw [propsW]; simp
  | _ :: _, [], _, _, _ => by rw [propsW]; simp
end

/-- C79 (partial): the JavaScript function returns a value of the expected type. Native code gets the converted
value, and can read it. Missing: types that JavaScript may return a buffer for, for which this is false
(`C79_fails_returned_buffer`). -/
theorem C79_callback_result_partial (hK : K.Faithful) (ops : List Op) (j : Js) {ret : JTy} {stack : List Frame}
    (hs : (run K E b narrow at_ ops).stack = .callback ret :: stack) (ht : Ev.trapped ∉ (run K E b narrow at_ ops).log)
    (hb : ret.takesBuffer = false) (hty : Typed E ret j) {val : Val} (hv : fromJs E b narrow ret j = .ok val) :
    let s := run K E b narrow at_ ops
    let s' := run K E b narrow at_ (ops ++ [.finish (some j)])
    ∃ v, s'.log = s.log ++ [.returned v] ∧ s'.stack = stack ∧ v.read (holds s'.log) = some val := by
  have hd := alive K E b narrow at_ ht
  dsimp only
  rw [run_snoc]
  generalize run K E b narrow at_ ops = s at *
  have hg := fromW_typed (b := b) (narrow := narrow) hK ret j hty s.boxes
  have hn := fromW_no_box K E b narrow ret j s.boxes hb
  rw [hv] at hg
  obtain ⟨v, h1, h2⟩ := hg
  have he : step K E b narrow at_ s (.finish (some j)) = { s with boxes := s.boxes + 0, stack, log := s.log ++ [.returned v] } := by
    simp only [step, hd, stepFinish, hs, h1, hn]; simp [allocs, frees]
  rw [he]
  refine ⟨v, rfl, rfl, h2 _ ?_⟩
  rw [hn]
  intro i bs hi
  simp at hi

/-! ### What does not hold -/

/-- A JavaScript engine that reads everything of another type as `undefined` is: `NaN`, `false`, exceptions. -/
def strict : Glue where
  num | .num x => some x | _ => some .nan
  bool | .bool v => some v | _ => some false
  str | .str s => some s | _ => none
  bytes | .buf bs => some bs | _ => none

theorem strict_faithful : strict.Faithful := ⟨fun _ => rfl, fun _ => rfl, fun _ => rfl, fun _ => rfl⟩

/-- wasm32, no overflow checks. -/
def wasm32 : Env where
  wasm := true
  wide := false
  checks := false

/-- `"hi"`, as JavaScript passes it. -/
def hi : List UInt8 := [104, 105, 0]

/-- C79: a JavaScript function returns a buffer where native code expects a slice of bytes, as it may pass one to
an exported function. Native code gets a pointer to memory that is freed already. -/
theorem C79_fails_returned_buffer (names : List Text) (fields : List JTy) (bytes : List UInt8) :
    let ops := [Op.enter [] .void false [], .call false [] (.struct true names fields) [], .finish (some (.buf bytes))]
    Typed E (.struct true names fields) (.buf bytes) ∧
    fromJs E b narrow (.struct true names fields) (.buf bytes) = .ok (.struct [.ptr (.mem bytes), .int bytes.length, .void]) ∧
    ∃ v, (run K E b narrow at_ ops).log.getLast? = some (.returned v) ∧ v.read (holds (run K E b narrow at_ ops).log) = none := by
  refine ⟨?_, by rw [fromJs], .struct [.ptr (.box 0), .int bytes.length, .void], ?_, ?_⟩
  · rw [Typed]
    exact ⟨fun ps h => (nomatch h), fun bs _ => .inl rfl⟩
  · simp [run, step, State.inJs, stepEnter, argsW, stepCall, plains, toAll, stepFinish, fromW, allocs, frees]
  · simp [run, step, State.inJs, stepEnter, argsW, stepCall, plains, toAll, stepFinish, fromW, allocs, frees, holds, WVal.read, reads]

/-- C79: the same for a string (`char const *`), with a concrete one. -/
theorem C79_fails_returned_string (at_ : Nat → Nat) :
    let ops := [Op.enter [] .void false [], .call false [] (.ptr true .cchar) [], .finish (some (.buf hi))]
    fromJs wasm32 b narrow (.ptr true .cchar) (.buf hi) = .ok (.ptr (.mem hi)) ∧
    ∃ v, (run strict wasm32 b narrow at_ ops).log.getLast? = some (.returned v) ∧
      v.read (holds (run strict wasm32 b narrow at_ ops).log) = none := by
  refine ⟨rfl, .ptr (.box 0), rfl, rfl⟩

/-- C79: an exported function returns its argument, a string borrowed from JavaScript. JavaScript gets the address
of memory that is freed already. -/
theorem C79_fails_returned_argument :
    let ops := [Op.enter [.ptr true .cchar] (.ptr true .cchar) false [.buf hi], .leave (.ptr (.box 0))]
    let s := run strict wasm32 b narrow (fun r => 4096 + 16 * r) ops
    ∃ j, s.log.getLast? = some (.left false j) ∧ prop t!"addr" j = .num (.fin 4096 0) ∧ s.log.head? = some (.alloc 0 hi) ∧ holds s.log 0 = none :=
  ⟨_, rfl, rfl, rfl, rfl⟩

/-- C79: values of another type are not always rejected: where `js_sys` reads `true` as 1, an exported function
that takes a `uint32_t` is called with 1. It is an error on the other targets. -/
theorem C79_fails_unchecked (h : K.num (.bool true) = some (.fin 1 0)) :
    (run K wasm32 b narrow at_ [.enter [.int .u32] .void false [.bool true]]).log = [.entered [.int 1]] ∧
    fromArgs wasm32 b narrow [.int .u32] [.bool true] = .err .wrongType := by
  refine ⟨?_, rfl⟩
  have : fromW K wasm32 b narrow (.int .u32) (.bool true) 0 = (.ok (.int 1), []) := by
    rw [fromW, intW]
    simp only [small, if_true, h, cast]
    rfl
  simp [run, step, State.inJs, stepEnter, argsW, this, Conv.bind, allocs, Out.map]

/-- C79: where `js_sys` throws on a value of another type, the exception passes through the native frames and
the copies already made are never freed. -/
theorem C79_fails_leak (h : K.str .undefined = none) (variants : List (Text × Int)) :
    let s := run K wasm32 b narrow at_ [.enter [.ptr true .cchar, .enum variants] .void false [.buf hi, .undefined]]
    s.stack = [] ∧ s.log = [.alloc 0 hi, .trapped] ∧ holds s.log 0 = some hi := by
  have e : run K wasm32 b narrow at_ [.enter [.ptr true .cchar, .enum variants] .void false [.buf hi, .undefined]] =
      { boxes := 1, dead := true, log := [.alloc 0 hi, .trapped] } := by
    have h2 : fromW K wasm32 b narrow (.enum variants) .undefined 1 = (.trap, []) := by rw [fromW, h]; rfl
    have h1 : fromW K wasm32 b narrow (.ptr true .cchar) (.buf hi) 0 = (.ok (.ptr (.box 0)), [hi]) := by rw [fromW]; rfl
    simp [run, step, State.inJs, stepEnter, argsW, h1, h2, Conv.bind, allocs, Out.map, State.trap]
  rw [e]
  exact ⟨rfl, rfl, rfl⟩

/-! ### The hypotheses can be met -/

/-- An exported function gets `"hi"` and 7, calls a JavaScript function with 7, which calls another exported
function with `"hi"`; the two copies are there at once. -/
def nested : List Op :=
  [.enter [.ptr true .cchar, .int .u32] .void false [.buf hi, .num (.fin 7 0)], .call false [.int .u32] (.int .u32) [.int 7],
   .enter [.ptr true .cchar] .void true [.buf hi]]

example : (run strict wasm32 b narrow at_ nested).stack.length = 3 ∧ holds (run strict wasm32 b narrow at_ nested).log 0 = some hi ∧
    holds (run strict wasm32 b narrow at_ nested).log 1 = some hi := ⟨rfl, rfl, rfl⟩
example : (run strict wasm32 b narrow at_ (nested ++ [.leave .void, .finish (some (.num (.fin 8 0))), .leave .void])).log =
    [.alloc 0 hi, .entered [.ptr (.box 0), .int 7], .invoked [.identity, .val (.num (.fin 7 0))], .alloc 1 hi, .entered [.ptr (.box 1)],
     .free 1, .left true .undefined, .returned (.int 8), .free 0, .left false .undefined] := by
  have h1 : run strict wasm32 b narrow at_ nested =
    { boxes := 2, dead := false
      stack := [.native .void true [1] [.ptr true .cchar] [.buf hi] [.ptr (.box 1)], .callback (.int .u32),
        .native .void false [0] [.ptr true .cchar, .int .u32] [.buf hi, .num (.fin 7 0)] [.ptr (.box 0), .int 7]]
      log := [.alloc 0 hi, .entered [.ptr (.box 0), .int 7], .invoked [.identity, .val (.num (.fin 7 0))], .alloc 1 hi, .entered [.ptr (.box 1)]] } := rfl
  rw [run, List.foldl_append, ← run, h1]
  rfl
example : TypedArgs wasm32 [.ptr true .cchar, .int .u32] [.buf hi, .num (.fin 7 0)] := by simp [TypedArgs, Typed]
example : fromArgs wasm32 b narrow [.ptr true .cchar, .int .u32] [.buf hi, .num (.fin 7 0)] = .ok [.ptr (.mem hi), .int 7] := rfl
/-- The second argument is out of range: the copy of the first is freed. -/
example : (run strict wasm32 b narrow at_ [.enter [.ptr true .cchar, .int .u8] .void false [.buf hi, .num (.fin 700 0)]]).log =
    [.alloc 0 hi, .free 0, .threw .invalidArg] := rfl

end Verif.Wasm
