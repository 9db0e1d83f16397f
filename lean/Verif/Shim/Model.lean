import Verif.Layout.Model
/-!
# Model of the functions that `#[ffi_export]` exports

`src/proc_macro/ffi_export/fn_/mod.rs` lines 93-187, with `UnwindGuard` (`src/_lib.rs` lines 583-601).

The exported function is a shim around the Rust function.  It is modelled as the sequence of the actions
its body performs, any of which may panic, together with the language's rules for unwinding.  A value is
its byte image, as in `Verif.Layout`.

Not modelled: that recent compilers also abort when a panic reaches the boundary of an `extern "C"`
function (here only the guard is relied upon); panics of destructors run by the unwinding (these abort).
-/
namespace Verif.Shim
open Verif.Layout (Target Ty fromRawUnchecked intoRaw)

/-- A byte image (language). -/
abbrev Bytes := List UInt8

/-- A parameter's pattern: an identifier (with `ref`, `mut` or not) or anything else.
`src/proc_macro/ffi_export/fn_/mod.rs` lines 104-130. -/
inductive Pat
  | ident (x : String)
  | other
deriving DecidableEq, Repr

/-- `arg_name.to_string().starts_with("__arg_")`, line 118. -/
def reserved (x : String) : Bool := "__arg_".toList.isPrefixOf x.toList

/-- Line 127: `format!("{}{}", ARG_PREFIX, i)`. -/
def generatedName (i : Nat) : String := "__arg_" ++ toString i

/-- The name of the `i`-th parameter of the shim, lines 104-134. -/
def paramName (i : Nat) : Pat → String
  | .ident x => if reserved x then generatedName i else x
  | .other => generatedName i

/-- The names of the shim's parameters (`each_arg`), lines 95-138. -/
def paramNames (ps : List Pat) : List String := ps.mapIdx paramName

/-- The local variable `abort_on_unwind_guard`. `src/proc_macro/ffi_export/fn_/mod.rs` lines 177-179, 185.
-/
inductive Guard
  | uninit
  | armed
  | forgotten
deriving DecidableEq, Repr

/-- Not in the code: what is observed during a call. -/
inductive Event
  /-- The Rust function starts, with these arguments. -/
  | body (args : List Bytes)
  /-- A value is dropped by the unwinding. -/
  | dropped (v : Bytes)
deriving DecidableEq, Repr

/-- Not in the code: how a call of the exported function ends. -/
inductive Result
  | returned (raw : Bytes)
  | aborted
  /-- The panic goes on in the caller. -/
  | unwinds
  | ub
deriving DecidableEq, Repr

/-- The actions of the body of the shim, `src/proc_macro/ffi_export/fn_/mod.rs` lines 176-187. -/
inductive Instr
  /-- `abort_on_unwind_guard = UnwindGuard(..)`, line 179 -/
  | arm
  /-- `from_raw_unchecked(arg)`, line 182 -/
  | convert (x : String) (t : Ty)
  /-- `fname(..)`, line 182 -/
  | call
  /-- `into_raw(..)`, lines 181-183 -/
  | intoRaw
  /-- `mem::forget(abort_on_unwind_guard)`, line 185 -/
  | forget

/-- The body of the shim, lines 176-187, in order of evaluation (left to right). -/
def program (names : List String) (tys : List Ty) : List Instr :=
  [.arm] ++ (names.zip tys).map (fun p => .convert p.1 p.2) ++ [.call, .intoRaw, .forget]

/-- The variables and temporaries of the shim, `src/proc_macro/ffi_export/fn_/mod.rs` lines 140-187. -/
structure State where
  /-- The shim's parameters. -/
  params : List (String × Bytes)
  guard : Guard
  /-- The arguments converted so far. -/
  args : List Bytes
  ret : Bytes
  trace : List Event
deriving DecidableEq, Repr

/-- Why an action stops, with the state it leaves. (language) -/
inductive Stop
  | panic (s : State)
  | ub
deriving DecidableEq, Repr

/-- One action. `f` is the Rust function: its result, or a panic. `src/proc_macro/ffi_export/fn_/mod.rs`,
the lines cited at `Instr`. -/
def step (tg : Target) (debug : Bool) (ret : Ty) (f : List Bytes → Option Bytes) (s : State) : Instr → Except Stop State
  | .arm => .ok { s with guard := .armed }
  | .convert x t =>
      match s.params.find? (·.1 == x) with
      | some (_, raw) =>
          match fromRawUnchecked tg debug t raw with
          | .ok v => .ok { s with args := s.args ++ [v] }
          | .error .ub => .error .ub
          | .error _ => .error (.panic s)
      -- does not compile
      | none => .error .ub
  | .call =>
      -- the arguments are moved into the function
      let s' := { s with args := [], trace := s.trace ++ [.body s.args] }
      match f s.args with
      | some v => .ok { s' with ret := v }
      | none => .error (.panic s')
  | .intoRaw =>
      match intoRaw tg ret s.ret with
      | .ok raw => .ok { s with ret := raw }
      | .error _ => .error (.panic s)
  | .forget => .ok { s with guard := .forgotten }

/-- `impl Drop for UnwindGuard`, `src/_lib.rs` lines 590-601, with `__abort_with_msg__!`, lines 443-458:
it panics, with a value in scope whose destructor panics too.  A second panic during unwinding aborts the
process, whether or not the guard was dropped by an unwinding. -/
def dropGuard : Result := .aborted

/-- Unwinding out of the shim: its temporaries, then its variables are dropped. (language) -/
def unwind (s : State) : Result × List Event :=
  (match s.guard with
   | .armed => dropGuard
   | .uninit => .unwinds
   | .forgotten => .unwinds,
   s.trace ++ s.args.reverse.map .dropped)

/-- The body of the shim, up to its end or to a panic, `src/proc_macro/ffi_export/fn_/mod.rs` lines
176-187. -/
def exec (tg : Target) (debug : Bool) (ret : Ty) (f : List Bytes → Option Bytes) (s : State) : List Instr → Result × List Event
  | [] =>
      -- the end of the scope: a guard that was not forgotten would be dropped
      match s.guard with
      | .armed => (dropGuard, s.trace)
      | _ => (.returned s.ret, s.trace)
  | i :: is =>
      match step tg debug ret f s i with
      | .ok s => exec tg debug ret f s is
      | .error (.panic s) => unwind s
      | .error .ub => (.ub, s.trace)

/-- A call of the exported function: patterns and types of its parameters, its return type, the Rust
function and the raw arguments. `src/proc_macro/ffi_export/fn_/mod.rs` lines 140-187. -/
def shim (tg : Target) (debug : Bool) (ps : List Pat) (tys : List Ty) (ret : Ty) (f : List Bytes → Option Bytes)
    (raws : List Bytes) : Result × List Event :=
  exec tg debug ret f ⟨(paramNames ps).zip raws, .uninit, [], [], []⟩ (program (paramNames ps) tys)
end Verif.Shim
