import Verif.Generics.Spec
import Verif.DynGen.Model
/-!
# What generic `dyn` traits promise (C97)

The rules of Rust for parameters of impls and functions, and for `transmute`. A trait works at all its instances if the items
that are generated for it obey them.
-/
namespace Verif.DynGen
open Generics

mutual
/-- The parameter occurs in the type. -/
def Occurs (x : String) : Ty → Prop
  | .param y => x = y
  | .con _ args => OccursIn x args
  | .layout t => Occurs x t
@[inherit_doc Occurs]
def OccursIn (x : String) : List Ty → Prop
  | [] => False
  | t :: ts => Occurs x t ∨ OccursIn x ts
end

/-- What Rust demands of a list of parameters: different names, lifetimes first; and, but in types and traits, no defaults. -/
structure Declares (ps : List Param) : Prop where
  nodup : (ps.map (·.name)).Nodup
  order : ∃ ls ts, ps = ls ++ ts ∧ (∀ p ∈ ls, p.kind = .lifetime) ∧ ∀ p ∈ ts, p.kind ≠ .lifetime
  defaults : ∀ p ∈ ps, p.default = none
  bounds : ∀ p ∈ ps, ∀ b ∈ p.bounds, Ty.Overs (ps.map (·.name)) b.args

/-- All parameters of the predicates are declared, and constants are not bounded. -/
def Closed (ps : List Param) (ws : List Pred) : Prop :=
  ∀ q ∈ ws, q.subject.Over (ps.map (·.name)) ∧ Ty.Overs (ps.map (·.name)) q.bound.args ∧
    ∀ p ∈ ps, p.kind = .const → q.subject ≠ .param p.name

/-- What Rust demands of an impl: only declared parameters occur, and each declared parameter that is not a lifetime occurs in
the type or in the trait. -/
structure Wf (i : Impl) : Prop where
  declares : Declares i.intro
  closed : Closed i.intro i.wheres
  self : i.self.Over (i.intro.map (·.name))
  trait : Ty.Overs (i.intro.map (·.name)) i.trait.args
  assoc : ∀ t, i.assoc = some t → t.Over (i.intro.map (·.name))
  used : ∀ p ∈ i.intro, p.kind ≠ .lifetime → Occurs p.name i.self ∨ OccursIn p.name i.trait.args

/-- What Rust demands of a function and of the arguments at which it is named: by position, a type for a type and a constant for a
constant. Lifetimes may be left out, together. -/
structure Fn.Wf (f : Fn) : Prop where
  declares : Declares f.params
  closed : Closed f.params f.wheres
  lifetimes : f.args.filter (·.kind = .lifetime) = [] ∨
    (f.args.filter (·.kind = .lifetime)).length = (f.params.filter (·.kind = .lifetime)).length
  kinds : (f.args.filter (·.kind ≠ .lifetime)).map (·.kind) = (f.params.filter (·.kind ≠ .lifetime)).map (·.kind)

/-- Each parameter of the function is given the parameter of that name: the function is that of the same arguments. -/
def Fn.Same (f : Fn) : Prop :=
  (f.args.filter (·.kind ≠ .lifetime)).map (·.name) = (f.params.filter (·.kind ≠ .lifetime)).map (·.name) ∧
  (f.args.filter (·.kind = .lifetime) = [] ∨
    (f.args.filter (·.kind = .lifetime)).map (·.name) = (f.params.filter (·.kind = .lifetime)).map (·.name))

/-- The size of the type does not depend on its parameters, as far as Rust tells (`transmute` needs this, E0512): pointers, and types in
which no parameters but lifetimes occur. `lts`: the lifetimes. -/
inductive Fixed (lts : List String) : Ty → Prop
  | pointer {args} : Fixed lts (.con "&" args)
  | pointerMut {args} : Fixed lts (.con "&mut" args)
  | closed {t} : t.Over lts → Fixed lts t
  | layout {t} : Fixed lts t → Fixed lts (.layout t)

/-- What Rust demands of a trait, besides what it demands of a definition: the names of the macro are not used; the types of
methods use the parameters of the trait and the lifetimes of the method. -/
structure Legal (T : Trait) : Prop where
  nodup : (T.generics.params.map (·.name)).Nodup
  order : ∃ ls ts, T.generics.params = ls ++ ts ∧ (∀ p ∈ ls, p.kind = .lifetime) ∧ ∀ p ∈ ts, p.kind ≠ .lifetime
  bounds : ∀ p ∈ T.generics.params, ∀ b ∈ p.bounds, Ty.Overs (T.generics.params.map (·.name)) b.args
  wheres : ∀ q ∈ T.generics.wheres, q.subject.Over (T.generics.params.map (·.name)) ∧
    Ty.Overs (T.generics.params.map (·.name)) q.bound.args ∧
    ∀ p ∈ T.generics.params, p.kind = .const → q.subject ≠ .param p.name
  fresh : usability.name ∉ T.generics.params.map (·.name)
  freshImpl : "__impl_" ++ T.name ∉ T.generics.params.map (·.name)
  shadow : ∀ m ∈ T.methods, ∀ x ∈ m.lifetimes, x ∉ T.generics.params.map (·.name)
  methods : ∀ m ∈ T.methods, ∀ t ∈ m.args ++ m.ret.toList, t.Over (m.lifetimes ++ T.generics.params.map (·.name))

/-- Types are declared before constants. (Rust does not demand it.) -/
def TypesFirst (T : Trait) : Prop :=
  ∃ ls ts cs, T.generics.params = ls ++ ts ++ cs ∧ (∀ p ∈ ls, p.kind = .lifetime) ∧ (∀ p ∈ ts, p.kind = .type) ∧
    ∀ p ∈ cs, p.kind = .const

/-- The lifetimes that a method may use. -/
def lifetimesOf (T : Trait) (m : Method) : List String :=
  m.lifetimes ++ (T.generics.params.filter (·.kind = .lifetime)).map (·.name)

/-- What safer_ffi's own impls give: function pointers have a C layout that is not opaque if their arguments and results have
one (/repo/src/layout/impls.rs lines 385-440); `PhantomData` has one (lines 733-746); a C layout is its own C layout
(/repo/src/layout/_mod.rs lines 255-302, 916-934); so have `()` and pointers. -/
structure Library (W : World) : Prop where
  fn : ∀ ts, (∀ t ∈ ts, W t reprC) → W (.con "fn" ts) concreteReprC
  phantom : ∀ t, W (.con "PhantomData" [t]) concreteReprC
  layout : ∀ t, W t reprC → W (.layout t) reprC
  unit : W unit reprC
  pointer : ∀ c ∈ ["NonNullOwned", "NonNullRef", "NonNullMut"], ∀ t, W (.con c [t]) reprC

/-- The name of the type of trait objects with these auto traits. -/
def objectName (a : Auto) (trait : String) : String :=
  match a.send, a.sync with
  | false, false => "dyn " ++ trait
  | true, false => "dyn Send + " ++ trait
  | false, true => "dyn Sync + " ++ trait
  | true, true => "dyn Send + Sync + " ++ trait

end Verif.DynGen
