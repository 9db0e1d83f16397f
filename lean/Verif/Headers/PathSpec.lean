import Verif.Headers.AbiSpec
/-!
# Specification: places within values

The expressions that C and Rust programmers write to get at a part of a value, such as `line.to->x` or
`palette.colors[3]`, and what part that is. Independent of the way headers are written.
-/
namespace Verif.Headers
open Text Layout

/-- A step of such an expression. -/
inductive Sel
  | field (name : Text)
  | index (i : Nat)
  | deref
  deriving DecidableEq, Repr

/-- Where a part is: the offset within the value, and within each of the values that the pointers on the way point to. -/
abbrev Offsets := List Nat

/-- The same, this number of bytes further. -/
def Offsets.shift (o : Nat) : Offsets → Offsets
  | [] => []
  | x :: xs => (o + x) :: xs

/-- The part of a Rust value of the first type, where it is, and its type. What a transparent struct wraps is at the place
of the struct. The fields and array items on the way are those with bytes. -/
inductive RPlace (A : Abi) (P : Prog) : CTy → List Sel → Offsets → CTy → Prop
  | here {t} : RPlace A P t [] [0] t
  | field {i g docs size fs ss f o p os u} : P.decl i g = .struct docs size fs → RShapes A P fs ss →
      (f, o) ∈ fs.zip (offsetsFrom 0 (lays A ss)) → f.size ≠ 0 → RPlace A P f.ty p os u →
      RPlace A P (.adt i g) (.field f.name :: p) (Offsets.shift o os) u
  | index {n t s i p os u} : i < n → RShape A P t s → (s.lay A).1 ≠ 0 → RPlace A P t p os u →
      RPlace A P (.array n t) (.index i :: p) (Offsets.shift (i * (s.lay A).1) os) u
  | alias {rn docs t x p os u} : RPlace A P t (x :: p) os u → RPlace A P (.alias rn docs t) (x :: p) os u
  | constPtr {t p os u} : RPlace A P t p os u → RPlace A P (.constPtr t) (.deref :: p) (0 :: os) u
  | mutPtr {t p os u} : RPlace A P t p os u → RPlace A P (.mutPtr t) (.deref :: p) (0 :: os) u

/-- A C type apart from its `const`. -/
def unconst : CT → CT
  | .const t => unconst t
  | t => t

/-- The part of a C value, where it is, and its type apart from `const`. -/
inductive CPlace (A : Abi) (env : Env) : CT → List Sel → Offsets → CT → Prop
  | here {t} : CPlace A env t [] [0] (unconst t)
  | const {t x p os u} : CPlace A env t (x :: p) os u → CPlace A env (.const t) (x :: p) os u
  | alias {n t x p os u} : (baseTypes A).lookup n = none → env.lookup n = some (.alias t) → CPlace A env t (x :: p) os u →
      CPlace A env (.name n) (x :: p) os u
  | field {n ms ss m t o p os u} : (baseTypes A).lookup n = none → env.lookup n = some (.struct ms) → CShapes A env ms ss →
      ((m, t), o) ∈ ms.zip (offsetsFrom 0 (lays A ss)) → CPlace A env t p os u →
      CPlace A env (.name n) (.field m :: p) (Offsets.shift o os) u
  | index {n t s i p os u} : i < n → CShape A env t s → CPlace A env t p os u →
      CPlace A env (.array (nat n) t) (.index i :: p) (Offsets.shift (i * (s.lay A).1) os) u
  | deref {t p os u} : CPlace A env t p os u → CPlace A env (.ptr t) (.deref :: p) (0 :: os) u

/-- How C programmers write the same: C cannot pass arrays by value, so they are in a struct, `a.idx[i]`. -/
def inC (p : List Sel) : List Sel := p.flatMap fun
  | .index i => [.field t!"idx", .index i]
  | x => [x]

/-- A C compiler rejects structs with two members of the same name. -/
def MembersDistinct (env : Env) : Prop := ∀ n ms, env.lookup n = some (.struct ms) → (ms.map (·.1)).Nodup

end Verif.Headers
