import Verif.Wasm.Model
/-!
# Specification of the JavaScript boundary on wasm
-/
namespace Verif.Wasm
open Text Headers Js

/-- What is used of `js_sys`: values of the expected type are read as they are. -/
structure Glue.Faithful (K : Glue) : Prop where
  num : ∀ x, K.num (.num x) = some x
  bool : ∀ v, K.bool (.bool v) = some v
  str : ∀ s, K.str (.str s) = some s
  bytes : ∀ bs, K.bytes (.buf bs) = some bs

/-- What box `r` holds after some events; nothing unless it is allocated and not freed. -/
def holds (log : List Ev) (r : Nat) : Option (List UInt8) :=
  log.foldl (fun held e => match e with
    | .alloc r' bytes => if r' = r then some bytes else held
    | .free r' => if r' = r then none else held
    | _ => held) none

/-- Boxes are allocated once, and only allocated boxes are freed. -/
def Safe (log : List Ev) : Prop :=
  (∀ past rest r bytes, log = past ++ .alloc r bytes :: rest → ∀ bytes', .alloc r bytes' ∉ past) ∧
  (∀ past rest r, log = past ++ .free r :: rest → holds past r ≠ none)

mutual
/-- What native code reads in a value, the boxes being as `mem` says; nothing if it holds a pointer to a box that
is not there. -/
def WVal.read (mem : Nat → Option (List UInt8)) : WVal → Option Val
  | .int v => some (.int v)
  | .float x => some (.float x)
  | .bool v => some (.bool v)
  | .void => some .void
  | .ptr (.addr a) => some (.ptr (.addr a))
  | .ptr (.box r) => (mem r).map fun bytes => .ptr (.mem bytes)
  | .bytes bs => some (.bytes bs)
  | .disc d => some (.disc d)
  | .struct vs => (reads mem vs).map .struct
/-- The same for several values. -/
def reads (mem : Nat → Option (List UInt8)) : List WVal → Option (List Val)
  | [] => some []
  | v :: vs => (v.read mem).bind fun x => (reads mem vs).map (x :: ·)
end

mutual
/-- The JavaScript values whose types are those expected, wherever they are not checked: numbers for floats and
integers of at most 32 bits (`addr` of a pointer too), a string for an enum and the `type` of a pointer, … -/
def Typed (E : Env) : JTy → Js → Prop
  | .int k, j => small E k = true → ∃ x, j = .num x
  | .f32, j => ∃ x, j = .num x
  | .f64, j => ∃ x, j = .num x
  | .bool, j => ∃ v, j = .bool v
  | .void, j => j = .undefined
  | .ptr const to, j =>
      (∀ ps, j = .obj ps → (∃ s, prop t!"type" j = .str s) ∧ ∃ x, prop t!"addr" j = .num x) ∧
      (∀ bs, j = .buf bs → const = true ∧ to = .cchar)
  | .bytes _, j => ∃ bs, j = .buf bs
  | .enum _, j => ∃ s, j = .str s
  | .struct sliceRef names fields, j =>
      (∀ ps, j = .obj ps → TypedProps E names fields j) ∧
      (∀ bs, j = .buf bs → sliceRef = true ∨ TypedProps E names fields j)
/-- The same for the fields of a struct. -/
def TypedProps (E : Env) : List Text → List JTy → Js → Prop
  | name :: names, ty :: tys, j => Typed E ty (prop name j) ∧ TypedProps E names tys j
  | _, _, _ => True
end

/-- The same for arguments. -/
def TypedArgs (E : Env) : List JTy → List Js → Prop
  | ty :: tys, j :: js => Typed E ty j ∧ TypedArgs E tys js
  | [], [] => True
  | _, _ => False

end Verif.Wasm
