import Verif.BytesVt.Model
import Verif.Bytes.Spec
/-! Vocabulary of C69: counts of calls, and what a program sees. -/
namespace Verif.BytesVt
open Verif.Bytes (Byte Raw isInlined wordMax)

/-- How many values were constructed over this owner: `from_raw_parts`. -/
def given (o : Own) (log : List Ev) : Nat :=
  log.countP fun | .made o' _ _ => decide (o' = o) | _ => false

/-- How many times `retain(owner, capacity)` of this vtable was called. -/
def retained (o : Own) (log : List Ev) : Nat :=
  log.countP fun | .retain o' => decide (o' = o) | _ => false

/-- How many times `release(owner, capacity)` of this vtable was called. -/
def released (o : Own) (log : List Ev) : Nat :=
  log.countP fun | .release o' => decide (o' = o) | _ => false

/-- The contract of `from_raw_parts` still protects the storage: there is a call of `release` that has not
been made. Storage without a `release` is protected by its lifetime. -/
def Protected (e : Env) (log : List Ev) (o : Own) : Prop :=
  ∀ h, e.vts o.vt = some h → h.release = true → released o log < given o log + retained o log

/-- A program state that some history of calls reaches, from any contents of the memory. -/
def Reach (e : Env) (s : State) : Prop := ∃ mem ops os, run e (State.init mem) ops = .ok (s, os)

/-- `as_slice` of variable `i` gives `d`. -/
def Sees (e : Env) (s : State) (i : Nat) (d : List Byte) : Prop := ∃ s', step e s (.asSlice i) = .ok (s', .data d)

/-- How many live variables are stored with this owner. -/
def backed (e : Env) (s : State) (o : Own) : Nat :=
  s.vars.countP fun | some r => !isInlined e.toTarget r && decide (ownOf e r = o) | none => false

/-- An allocator may place `n` bytes at `a`: they fit in the address space, and the contract protects none of
the slices there. -/
def Free (e : Env) (log : List Ev) (a n : Nat) : Prop :=
  a + n < wordMax e.toTarget ∧
  ∀ x, a ≤ x → x < a + n → ∀ o st ln, Ev.made o st ln ∈ log → st ≤ x → x < st + ln → ¬ Protected e log o

/-- The variable is not stored in itself, and its vtable is `h`. -/
def HasVtable (e : Env) (s : State) (i : Nat) (h : Hooks) : Prop :=
  ∃ r, s.var i = some r ∧ isInlined e.toTarget r = false ∧ e.vts (ownOf e r).vt = some h

/-- The call changes or consumes variable `j`. -/
def Uses : Op → Nat → Prop
  | .drop i, j | .shrinkTo i _ _, j | .subsliced i _ _, j | .splitAt i _ _ _, j | .upgrade i _, j => i = j
  | _, _ => False

end Verif.BytesVt
