import Verif.Waker.Model
/-!
# Wakers handed to foreign code: contract and counting
-/
namespace Verif.Waker

/-- What the executor and C may do. The executor polls tasks it has, one poll at a time each, and drops them between polls. C
uses a `Context` only during the poll it was given to, and closures only while it owns a reference. -/
def Allowed (s : State) : Op → Prop
  | .spawn => True
  | .poll t => t < s.nt ∧ (s.tasks t).owned = true ∧ (s.tasks t).polling = false
  | .endPoll t => t < s.nt ∧ (s.tasks t).polling = true
  | .complete t => t < s.nt ∧ (s.tasks t).owned = true ∧ (s.tasks t).polling = false
  | .contextWake t => t < s.nt ∧ (s.tasks t).polling = true
  | .getWaker t => t < s.nt ∧ (s.tasks t).polling = true
  | .call c => c < s.nc ∧ 0 < (s.clos c).held
  | .retain c => c < s.nc ∧ 0 < (s.clos c).held
  | .release c => c < s.nc ∧ 0 < (s.clos c).held

instance (s : State) (op : Op) : Decidable (Allowed s op) := by
  cases op <;> simp only [Allowed] <;> infer_instance

/-- A history that keeps the contract. -/
def Lawful (s : State) : List Op → Prop
  | [] => True
  | op :: ops => Allowed s op ∧ Lawful (step s op) ops

instance lawfulDec : (s : State) → (ops : List Op) → Decidable (Lawful s ops)
  | _, [] => isTrue trivial
  | s, op :: ops => @instDecidableAnd _ _ _ (lawfulDec (step s op) ops)

/-- How many of the first `n` closures are alive and wake task `t`. -/
def aliveFor (clos : Nat → Clo) (t : Nat) : Nat → Nat
  | 0 => 0
  | n + 1 => aliveFor clos t n + (if (clos n).freed = false ∧ (clos n).task = t then 1 else 0)

end Verif.Waker
