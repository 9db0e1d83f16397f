import Verif.Js.Timeout
/-!
# Properties of the deadlock timeout
-/
namespace Verif.Js
open Text

/-- What a call asks for: `some none` to disable the timeout, `some (some t)` for `t` milliseconds. A number
from JavaScript counts modulo 2³², 0 disables. -/
def TOp.asks : TOp → Option (Option Nat)
  | .set t => some t
  | .setJs (.num (.fin m e)) => some (let n := (trunc m e % 2 ^ 32).toNat; if n = 0 then none else some n)
  | .setJs (.num _) => some none
  | _ => none

/-- The timeout after a history: what the first call that asks for one asks for, else 5000. -/
def inForce (past : List TOp) : Option Nat := ((past.findSome? TOp.asks).getD (some 5000))

/-- What a call returns after a history. -/
def expected (past : List TOp) : TOp → TOut
  | .get => .got (inForce past)
  | .getJs => .js (.ok (.num (.fin ((inForce past).getD 0) 0)))
  | .set _ => .set (if past.any (fun op => op.asks.isSome) then .err .genericFailure else .ok ())
  | .setJs (.num _) => .js (if past.any (fun op => op.asks.isSome) then .err .genericFailure else .ok .undefined)
  | .setJs _ => .js (.err .wrongType)

theorem wrap_u32 (v : Int) : wrap false 32 v = v % 2 ^ 32 := by
  simp [wrap]

theorem asks_setJs {E : Env} (hE : E.wasm = false) (x : Num) :
    (TOp.setJs (.num x)).asks = some (nonZero (get32 E false x).toNat) := by
  cases x with
  | fin m e => simp [TOp.asks, get32, hE, nonZero, wrap_u32]
  | nan => simp [TOp.asks, get32, hE, nonZero]
  | inf b => simp [TOp.asks, get32, hE, nonZero]

theorem tstep_state {E : Env} (hE : E.wasm = false) (past : List TOp) (op : TOp) :
    (tstep E (past.findSome? TOp.asks) op).1 = (past ++ [op]).findSome? TOp.asks := by
  rw [List.findSome?_append]
  cases op with
  | get => simp [tstep, TOp.asks]
  | getJs => simp [tstep, TOp.asks]
  | set t => cases h : past.findSome? TOp.asks <;> simp [tstep, TOp.asks, setTimeout]
  | setJs j =>
    cases j with
    | num x =>
      have := asks_setJs hE x
      cases h : past.findSome? TOp.asks <;> simp [tstep, this, setTimeoutJs, setTimeout]
    | _ => simp [tstep, TOp.asks, setTimeoutJs]

theorem any_asks (past : List TOp) : past.any (fun op => op.asks.isSome) = (past.findSome? TOp.asks).isSome := by
  induction past with
  | nil => rfl
  | cons op past ih => cases h : op.asks <;> simp [h, ih]

theorem tstep_out (E : Env) (past : List TOp) (op : TOp) : (tstep E (past.findSome? TOp.asks) op).2 = expected past op := by
  cases op with
  | get => cases h : past.findSome? TOp.asks <;> simp [tstep, expected, inForce, getTimeout, h, defaultTimeout]
  | getJs => cases h : past.findSome? TOp.asks <;> simp [tstep, expected, inForce, getTimeout, getTimeoutJs, h, defaultTimeout]
  | set t =>
    simp only [tstep, expected, any_asks]
    cases h : past.findSome? TOp.asks <;> simp [setTimeout]
  | setJs j =>
    cases j with
    | num x =>
      simp only [tstep, expected, any_asks]
      cases h : past.findSome? TOp.asks <;> simp [setTimeoutJs, setTimeout]
    | _ => simp [tstep, expected, setTimeoutJs]

theorem touts_append (E : Env) (hE : E.wasm = false) (ops : List TOp) : ∀ past : List TOp,
    touts E (past.findSome? TOp.asks) ops = ops.mapIdx fun i op => expected (past ++ ops.take i) op := by
  induction ops with
  | nil => intro past; rfl
  | cons op ops ih =>
    intro past
    rw [touts, tstep_out, tstep_state hE, ih, List.mapIdx_cons]
    simp

/-- C61: over every history of calls, each returns what the first setting before it says. -/
theorem C61_history (E : Env) (hE : E.wasm = false) (ops : List TOp) :
    touts E none ops = ops.mapIdx fun i op => expected (ops.take i) op := by
  simpa using touts_append E hE ops []

theorem touts_last (E : Env) (hE : E.wasm = false) (past : List TOp) (op : TOp) :
    (touts E none (past ++ [op])).getLast? = some (expected past op) := by
  rw [C61_history E hE, List.mapIdx_append]
  simp

/-- C61: until the first setting, the timeout is 5000 ms. -/
theorem C61_default (E : Env) (hE : E.wasm = false) {past : List TOp} (h : ∀ op ∈ past, op.asks = none) :
    (touts E none (past ++ [.get])).getLast? = some (.got (some 5000)) ∧
    (touts E none (past ++ [.getJs])).getLast? = some (.js (.ok (.num (.fin 5000 0)))) ∧
    (∀ t, (touts E none (past ++ [.set t])).getLast? = some (.set (.ok ()))) ∧
    ∀ x, (touts E none (past ++ [.setJs (.num x)])).getLast? = some (.js (.ok .undefined)) := by
  have h1 : past.findSome? TOp.asks = none := List.findSome?_eq_none_iff.2 h
  have h2 : past.any (fun op => op.asks.isSome) = false := by rw [any_asks, h1]; rfl
  simp [touts_last E hE, expected, inForce, h1, h2]

/-- C61: after the first setting, that value is in force, whatever follows; every later setting is an error. -/
theorem C61_once (E : Env) (hE : E.wasm = false) {before after : List TOp} (h : ∀ op ∈ before, op.asks = none) {op : TOp} {t : Option Nat}
    (ht : op.asks = some t) :
    (touts E none (before ++ op :: after ++ [.get])).getLast? = some (.got t) ∧
    (touts E none (before ++ op :: after ++ [.getJs])).getLast? = some (.js (.ok (.num (.fin (t.getD 0) 0)))) ∧
    (∀ t', (touts E none (before ++ op :: after ++ [.set t'])).getLast? = some (.set (.err .genericFailure))) ∧
    ∀ x, (touts E none (before ++ op :: after ++ [.setJs (.num x)])).getLast? = some (.js (.err .genericFailure)) := by
  have h0 : before.findSome? TOp.asks = none := List.findSome?_eq_none_iff.2 h
  have h1 : (before ++ op :: after).findSome? TOp.asks = some t := by
    rw [List.findSome?_append, h0, List.findSome?_cons, ht]; rfl
  have h2 : (before ++ op :: after).any (fun op => op.asks.isSome) = true := by rw [any_asks, h1]; rfl
  simp only [touts_last E hE]
  simp [expected, inForce, h1, h2]

/-- C61: JavaScript reads back the number it has set. -/
theorem C61_read_back (E : Env) (hE : E.wasm = false) (n : Nat) (hn : n < 2 ^ 32) :
    touts E none [.setJs (.num (.fin n 0)), .getJs] = [.js (.ok .undefined), .js (.ok (.num (.fin n 0)))] := by
  have ha : (TOp.setJs (.num (.fin n 0))).asks = some (if n = 0 then none else some n) := by
    have e : ((n : Int) % 2 ^ 32).toNat = n := by omega
    have e' : trunc n 0 = n := by simp [trunc]
    simp only [TOp.asks, e', e]
  rw [C61_history E hE]
  simp only [List.mapIdx_cons, List.mapIdx_nil, List.take]
  simp only [expected, inForce, List.findSome?_cons, ha, List.any_nil]
  by_cases h : n = 0 <;> simp [h]

/-- C61: numbers that are no milliseconds are accepted, and wrap: −1 sets 49 days. -/
theorem C61_fails_negative (E : Env) (hE : E.wasm = false) :
    touts E none [.setJs (.num (.fin (-1) 0)), .getJs] = [.js (.ok .undefined), .js (.ok (.num (.fin 4294967295 0)))] := by
  rw [C61_history E hE]
  rfl

example : touts ⟨false, true, true⟩ none [.getJs, .setJs (.num (.fin 0 0)), .get, .set (some 7), .get, .setJs (.bool true)] =
    [.js (.ok (.num (.fin 5000 0))), .js (.ok .undefined), .got none, .set (.err .genericFailure), .got none, .js (.err .wrongType)] := rfl
example : (TOp.setJs (.num (.fin 3 3))).asks = some (some 24) ∧ ∀ op ∈ [TOp.get, .getJs, .setJs .null], op.asks = none := by
  refine ⟨rfl, ?_⟩
  simp [TOp.asks]

end Verif.Js
