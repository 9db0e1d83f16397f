import Verif.OpaqueBox.Model
/-!
# Specification: histories
-/
namespace Verif.OpaqueBox

/-- The type without the wrapper `Opaque`. -/
inductive Wraps : Ty → Ty → Prop
  | self (t : Ty) : Wraps t t
  | opaque {t u : Ty} : Wraps t u → Wraps (.opaque t) u

/-- Two types that are the same but for the wrapper `Opaque`. -/
def Alike (t u : Ty) : Prop := ∃ v, (∃ s a, v = .base s a) ∧ Wraps t v ∧ Wraps u v

/-- What the caller of an `unsafe` function promises: the type is that of the value. -/
def Promise (s : State) : Op → Prop
  | .fromOwned i t | .release i t | .dropInPlace i t | .dealloc i t =>
      ∀ p x, s.var i = some p → s.objs[p.obj]? = some x → Alike x.ty t
  | _ => True

/-- The states of histories in which the promises are kept. -/
inductive Reach (panics : Nat → Bool) : State → Prop
  | init : Reach panics ⟨[], []⟩
  | step {s s' : State} {op : Op} {o : Out} : Reach panics s → Promise s op → step panics s op = .ok (s', o) → Reach panics s'

/-- Operations that do not give up a value or its memory without the other. -/
def Tidy : Op → Prop
  | .forget _ | .dropInPlace _ _ | .dealloc _ _ => False
  | _ => True

/-- Histories of such operations. -/
inductive TidyReach (panics : Nat → Bool) : State → Prop
  | init : TidyReach panics ⟨[], []⟩
  | step {s s' : State} {op : Op} {o : Out} : TidyReach panics s → Promise s op → Tidy op → step panics s op = .ok (s', o) →
      TidyReach panics s'

/-- The variable that an operation changes, or through which it writes. -/
def Op.on : Op → Option Nat
  | .new _ _ | .deref _ | .clone _ => none
  | .toOpaque i | .toReprC i | .toOpaqueReprC i | .intoBox i | .intoOwned i | .cast i _ | .fromOwned i _ | .set i _ | .drop i
  | .forget i | .release i _ | .dropInPlace i _ | .dealloc i _ => some i

/-- A variable holds the value. -/
def Held (s : State) (o : Nat) : Prop := ∃ i p, s.var i = some p ∧ p.obj = o

/-- The conversions between boxes: to opaque, to C, to both, and back to Rust. -/
def Conversion (i : Nat) (op : Op) : Prop := op = .toOpaque i ∨ op = .toReprC i ∨ op = .toOpaqueReprC i ∨ op = .intoBox i

end Verif.OpaqueBox
