import Verif.Headers.AbiSpec
/-!
# Specification: what C demands of the declarations of a header

Read from top to bottom, each declaration on what has been declared in front of it: names are declared before they are
used, and only once; members, array items and parameters are of complete types (ISO C 6.2.5, 6.7.2.1, 6.7.6.2, 6.5.2.2); names
are not keywords. Independent of the way headers are written.

The type names of the standard headers are taken as declared: that the `#include` comes first is part of C39. Enum constants
(C46) and tags have name spaces of their own here.
-/
namespace Verif.Headers
open Text

/-- The type names of `<stddef.h>`, `<stdint.h>` and `<stdbool.h>` that headers use, and of C. All of complete types. -/
def stdTypes : List Text :=
  [t!"size_t", t!"int8_t", t!"int16_t", t!"int32_t", t!"int64_t", t!"uint8_t", t!"uint16_t", t!"uint32_t", t!"uint64_t",
   t!"bool", t!"float", t!"double", t!"int", t!"char"]

/-- The keywords of C (ISO C 6.4.1, without those that begin with an underscore), and the macros of `<stdbool.h>`. -/
def cReserved : List Text :=
  [t!"auto", t!"break", t!"case", t!"char", t!"const", t!"continue", t!"default", t!"do", t!"double", t!"else", t!"enum",
   t!"extern", t!"float", t!"for", t!"goto", t!"if", t!"inline", t!"int", t!"long", t!"register", t!"restrict", t!"return",
   t!"short", t!"signed", t!"sizeof", t!"static", t!"struct", t!"switch", t!"typedef", t!"union", t!"unsigned", t!"void",
   t!"volatile", t!"while", t!"bool", t!"true", t!"false"]

/-- The name is that of a type. -/
def CDef.isType : CDef → Bool
  | .fn _ _ => false
  | _ => true

/-- The size of the type is known. -/
inductive Complete (env : Env) : CT → Prop
  | std {n} : n ∈ stdTypes → Complete env (.name n)
  | enum {n} : env.lookup n = some .enum → Complete env (.name n)
  | struct {n ms} : env.lookup n = some (.struct ms) → Complete env (.name n)
  | alias {n t} : env.lookup n = some (.alias t) → Complete env t → Complete env (.name n)
  | const {t} : Complete env t → Complete env (.const t)
  | ptr {t} : Complete env (.ptr t)
  | array {n t} : Complete env t → Complete env (.array n t)

/-- The type can be mentioned: all names in it are declared, and arrays are of some complete items. -/
inductive Usable (env : Env) : CT → Prop
  | std {n} : n ∈ stdTypes → Usable env (.name n)
  | void : Usable env (.name kvoid)
  | name {n d} : env.lookup n = some d → d.isType = true → Usable env (.name n)
  | const {t} : Usable env t → Usable env (.const t)
  | ptr {t} : Usable env t → Usable env (.ptr t)
  | array {n t} : n ≠ t!"0" → Usable env t → Complete env t → Usable env (.array n t)
  | fn {ret params} : Usable env ret → (∀ p ∈ params, Usable env p.2) → Usable env (.fn ret params)

/-- The declaration is accepted after these. A function can also be called, which takes complete types. -/
def Accepts (env : Env) : CDef → Prop
  | .struct ms => ∀ m ∈ ms, m.1 ∉ cReserved ∧ Usable env m.2 ∧ Complete env m.2
  | .enum => True
  | .opaque => True
  | .alias t => Usable env t
  | .fn ret params => Usable env ret ∧ (ret = .name kvoid ∨ Complete env ret) ∧
      ∀ p ∈ params, (∀ n, p.1 = some n → n ∉ cReserved) ∧ Usable env p.2 ∧ Complete env p.2

/-- All declarations are accepted, each after those in front of it. -/
def Compiles (env : Env) : Prop :=
  ∀ pre n d post, env = pre ++ (n, d) :: post → n ∉ cReserved ∧ n ∉ stdTypes ∧ n ∉ pre.map (·.1) ∧ Accepts pre d

/-! ### Programs -/

/-- A value of the type itself is not known to C: opaque types, and those without a value. -/
def unsized (P : Prog) : CTy → Bool
  | .void => true
  | .adt i g => match P.decl i g with
    | .opaque _ => true
    | _ => false
  | .alias _ _ t => unsized P t
  | _ => false

/-- What the trait bounds of fields and parameters see to (C85), and what they do not: no opaque types in arrays, no empty
arrays, no names that C reserves. -/
structure Solid (P : Prog) (es : List Export) : Prop where
  fields : ∀ i g docs size fs f, Reach P es (.adt i g) → P.decl i g = .struct docs size fs → f ∈ fs → f.size ≠ 0 →
    unsized P f.ty = false ∧ f.name ∉ cReserved
  items : ∀ n t, Reach P es (.array n t) → unsized P t = false ∧ n ≠ 0
  fns : ∀ f, .fn f ∈ es → f.name ∉ cReserved ∧ f.name ∉ stdTypes ∧ (f.ret = .void ∨ unsized P f.ret = false) ∧
    ∀ a ∈ f.args, unsized P a.ty = false ∧ a.name ∉ cReserved

end Verif.Headers
