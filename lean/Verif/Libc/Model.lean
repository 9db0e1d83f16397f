/-!
# The C types of the `libc` module

`safer_ffi::libc` re-exports C types of the crate `libc` and has its own where that crate has none, src/libc.rs. The macro
`use_libc_or_else!` decides between them by the rules for names of Rust: a glob import yields to an explicit one, and a name
has a meaning of its own as a type and as a value. Modelled: the modules that the macro makes, and these rules. Not modelled:
visibility (all is `pub`), macros and lifetimes as namespaces, documentation.
-/
namespace Verif.Libc

/-- Namespaces of Rust. (language) -/
inductive Ns | type | value
  deriving DecidableEq, Repr

/-- What a name means: a type, or a constant. (language) -/
inductive Ent (T : Type) | type (t : T) | const
  deriving DecidableEq, Repr

/-- A module: a crate, of which the types and the names of values are known; or items in their order, definitions of types and
constants, `use m::name;`, `use m::*;`. (language) -/
inductive Module (T : Type)
  | crate (types : String → Option T) (values : String → Bool)
  | empty
  | type (name : String) (t : T) (rest : Module T)
  | const (name : String) (rest : Module T)
  | use (m : Module T) (name : String) (rest : Module T)
  | glob (m : Module T) (rest : Module T)

variable {T : Type}

/-- What a name means in a module by its items and explicit imports, and by its glob imports. (language) -/
def Module.look : Module T → Ns → String → Option (Ent T) × Option (Ent T)
  | .crate types _, .type, n => ((types n).map .type, none)
  | .crate _ values, .value, n => (if values n then some .const else none, none)
  | .empty, _, _ => (none, none)
  | .type name t rest, ns, n =>
      let r := rest.look ns n
      if ns = .type ∧ n = name then (some (.type t), r.2) else r
  | .const name rest, ns, n =>
      let r := rest.look ns n
      if ns = .value ∧ n = name then (some .const, r.2) else r
  | .use m name rest, ns, n =>
      let r := rest.look ns n
      if n = name then ((m.look ns n).1.or ((m.look ns n).2.or r.1), r.2) else r
  | .glob m rest, ns, n =>
      let r := rest.look ns n
      (r.1, ((m.look ns n).1.or (m.look ns n).2).or r.2)

/-- What a path `m::name` means: glob imports yield to the others. (language) -/
def Module.find (m : Module T) (ns : Ns) (n : String) : Option (Ent T) := (m.look ns n).1.or (m.look ns n).2

/-- The imports of the module resolve: `use m::name;` is an error if `name` has no meaning in any namespace. (language) -/
def Module.resolves : Module T → Bool
  | .crate _ _ | .empty => true
  | .type _ _ rest | .const _ rest => rest.resolves
  | .use m name rest => m.resolves && ((m.find .type name).isSome || (m.find .value name).isSome) && rest.resolves
  | .glob m rest => m.resolves && rest.resolves

/-- The module `real_libc`, src/libc.rs 43-48: the constants, and all of `libc`. -/
def realLibc (libc : Module T) : List (String × T) → Module T
  | [] => .glob libc .empty
  | (n, _) :: cs => .const n (realLibc libc cs)

/-- The module `fallback`, src/libc.rs 57-61. -/
def fallback : List (String × T) → Module T
  | [] => .empty
  | (n, t) :: cs => .type n t (fallback cs)

/-- The imports of the names, then the rest, src/libc.rs 50-54. -/
def imports (real rest : Module T) : List (String × T) → Module T
  | [] => rest
  | (n, _) :: cs => .use real n (imports real rest cs)

/-- The module `helper`, src/libc.rs 42-62. -/
def helper (libc : Module T) (cs : List (String × T)) : Module T :=
  imports (realLibc libc cs) (.glob (fallback cs) .empty) cs

/-- `pub type $c_type = helper::$c_type;`, src/libc.rs 35-40: the types of `safer_ffi::libc`; `none`: the crate does not
compile. -/
def aliases (libc : Module T) (cs : List (String × T)) : Option (List (String × T)) :=
  if (helper libc cs).resolves then
    cs.mapM fun c => match (helper libc cs).find .type c.1 with
      | some (.type t) => some (c.1, t)
      | _ => none
  else none

/-- The names and the types that stand in, src/libc.rs 13-24. -/
def cTypes : List (String × String) :=
  [("c_char", "u8"), ("c_int", "core::ffi::c_int"), ("size_t", "usize"), ("uintptr_t", "usize")]

end Verif.Libc
