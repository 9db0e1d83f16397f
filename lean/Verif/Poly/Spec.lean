import Verif.Poly.Model
/-! # What values, objects and errors of the polyfill must do -/
namespace Verif.Poly
open Js (Num Res Err)

/-- The integer is a double: a multiple of a power of two with at most 53 bits. -/
def IsDouble (i : Int) : Prop := ∃ (m : Int) (k : Nat), i = m * 2 ^ k ∧ -2 ^ 53 < m ∧ m < 2 ^ 53

/-- Every half of a surrogate pair is next to its other half. -/
def WellFormed (u : Units) : Prop :=
  (∀ i a, u[i]? = some a → isHigh a = true → ∃ b, u[i + 1]? = some b ∧ isLow b = true) ∧
  (∀ i b, u[i]? = some b → isLow b = true → ∃ j a, i = j + 1 ∧ u[j]? = some a ∧ isHigh a = true)

/-- Values of the wrapper types, as their names say. -/
def Is (h : Heap) : Ty → V → Prop
  | .bigint, v => ∃ n, v = .bigint n
  | .boolean, v => ∃ b, v = .bool b
  | .number, v => ∃ x, v = .num x
  | .string, v => ∃ s, v = .str s
  | .null, v => v = .null
  | .undefined, v => v = .undefined
  | .object, v => ∃ i, v = .obj i
  | .buffer, v => ∃ i o, v = .obj i ∧ h[i]? = some o ∧ o.kind = .bytes
  | .promise, v => ∃ i o, v = .obj i ∧ h[i]? = some o ∧ o.kind = .promise
  | .function, v => ∃ i o, v = .obj i ∧ h[i]? = some o ∧ o.kind = .function

/-- The types of JavaScript's values: `typeof`, with a type of its own for `null`. -/
inductive HasValueType (h : Heap) : V → ValueType → Prop
  | undefined : HasValueType h .undefined .undefined
  | null : HasValueType h .null .null
  | boolean b : HasValueType h (.bool b) .boolean
  | number x : HasValueType h (.num x) .number
  | bigint n : HasValueType h (.bigint n) .bigint
  | string s : HasValueType h (.str s) .string
  | symbol k : HasValueType h (.symbol k) .symbol
  | function i o : h[i]? = some o → o.kind = .function → HasValueType h (.obj i) .function
  | object i o : h[i]? = some o → o.kind ≠ .function → HasValueType h (.obj i) .object

/-- The decimal digits of a number. -/
def decimal (n : Nat) : List Char :=
  if n < 10 then [Char.ofNat (48 + n)] else decimal (n / 10) ++ [Char.ofNat (48 + n % 10)]

/-- Assigning `vs` to the names `n`, `n + 1`, … of an object, one after the other. -/
def fill (G : Engine) (o : V) : Nat → List V → Heap → Res Heap
  | _, [], h => .ok h
  | n, v :: vs, h => (setNamed G h o (decimal n) v).bind (fill G o (n + 1) vs)

/-- An ordinary object that can be changed: not frozen, no typed array. -/
def Mutable (h : Heap) (o : V) : Prop := ∃ i ob, o = .obj i ∧ h[i]? = some ob ∧ ob.frozen = false ∧ ob.kind ≠ .bytes

/-- Names whose assignment does more than to set a property. -/
def Plain (name : List Char) : Prop := name ≠ "__proto__".toList ∧ name ≠ "length".toList

end Verif.Poly
