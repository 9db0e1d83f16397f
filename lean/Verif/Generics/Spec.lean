import Verif.Generics.Model
/-!
# What generic definitions promise (C96)

Instances of a definition, by position; what Rust demands of a definition; when an impl applies (Rust Reference,
"Implementations": the impl has an instance for which the type is equal and the bounds hold).
-/
namespace Verif.Generics

/-- What holds of the types of a program: `W t b` says `t : b`. (Types without parameters.) -/
abbrev World := Ty → Bound → Prop

/-- What safer_ffi's own impls give: a concrete layout is a layout, `PhantomData` has one.
/repo/src/layout/_mod.rs lines 916-934; /repo/src/layout/impls.rs lines 733-746. -/
structure Lawful (W : World) : Prop where
  concrete : ∀ t, W t concreteReprC → W t reprC
  phantom : ∀ t, W (.con "PhantomData" [t]) reprC

def Bound.subst (σ : String → Ty) (b : Bound) : Bound := ⟨b.name, Ty.substs σ b.args⟩

/-- The predicate holds at these arguments. -/
def Pred.Holds (W : World) (σ : String → Ty) (p : Pred) : Prop := W (p.subject.subst σ) (p.bound.subst σ)

/-- The bounds that are written at a parameter hold at these arguments. -/
def Param.Holds (W : World) (σ : String → Ty) (p : Param) : Prop := ∀ b ∈ p.bounds, W (σ p.name) (b.subst σ)

/-- An impl applies to a type at the arguments `σ`. -/
def Impl.At (W : World) (i : Impl) (t : Ty) (σ : String → Ty) : Prop :=
  i.self.subst σ = t ∧ (∀ p ∈ i.intro, p.Holds W σ) ∧ ∀ q ∈ i.wheres, q.Holds W σ

/-- `t : trait` by one of the impls generated. -/
def Output.Has (O : Output) (W : World) (trait : Bound) (t : Ty) : Prop :=
  ∃ i ∈ O.impls, i.trait = trait ∧ ∃ σ, i.At W t σ

/-- `<t as ReprC>::CLayout` is `u` by one of the impls generated. -/
def Output.Layout (O : Output) (W : World) (t u : Ty) : Prop :=
  ∃ i ∈ O.impls, i.trait = reprC ∧ ∃ σ, i.At W t σ ∧ ∃ a, i.assoc = some a ∧ u = a.subst σ

/-- The argument at the position of a parameter. -/
def Def.arg (D : Def) (args : List Ty) (x : String) : Ty :=
  (((D.generics.params.map (·.name)).zip args).lookup x).getD (.con "?" [])

/-- The definition may be used at these arguments: as many as parameters, and all bounds of the definition hold. -/
structure Def.Allows (D : Def) (W : World) (args : List Ty) : Prop where
  count : args.length = D.generics.params.length
  bounds : ∀ p ∈ D.generics.params, p.Holds W (D.arg args)
  wheres : ∀ q ∈ D.generics.wheres, q.Holds W (D.arg args)

mutual
/-- Only these parameters occur. -/
def Ty.Over (xs : List String) : Ty → Prop
  | .param x => x ∈ xs
  | .con _ args => Ty.Overs xs args
  | .layout t => t.Over xs
@[inherit_doc Ty.Over]
def Ty.Overs (xs : List String) : List Ty → Prop
  | [] => True
  | t :: ts => t.Over xs ∧ Ty.Overs xs ts
end

/-- What Rust demands of a definition: parameters have different names, lifetimes come first and have no defaults,
and no other parameters occur. -/
structure Def.Legal (D : Def) : Prop where
  nodup : (D.generics.params.map (·.name)).Nodup
  order : ∃ ls ts, D.generics.params = ls ++ ts ∧ (∀ p ∈ ls, p.kind = .lifetime) ∧ ∀ p ∈ ts, p.kind ≠ .lifetime
  bounds : ∀ p ∈ D.generics.params, ∀ b ∈ p.bounds, Ty.Overs (D.generics.params.map (·.name)) b.args
  wheres : ∀ q ∈ D.generics.wheres, q.subject.Over (D.generics.params.map (·.name)) ∧
    Ty.Overs (D.generics.params.map (·.name)) q.bound.args
  fields : ∀ f ∈ D.fields, f.2.Over (D.generics.params.map (·.name))

/-- The documented condition for `#[repr(C)]` (guide/src/derive-reprc/struct.md lines 88-93): besides the definition's own
bounds, each type argument has a C layout and each field has one that is not opaque. -/
def Def.Concrete (D : Def) (W : World) (args : List Ty) : Prop :=
  D.Allows W args ∧ (∀ p ∈ D.generics.params, p.kind = .type → W (D.arg args p.name) reprC) ∧
  ∀ f ∈ D.fields, W (f.2.subst (D.arg args)) ⟨"ConcreteReprC", []⟩

/-- What Rust demands of an impl: its parameters have different names, lifetimes come first, no parameter has a default,
each parameter occurs in the type, and no other parameters occur. -/
structure Impl.Legal (i : Impl) : Prop where
  nodup : (i.intro.map (·.name)).Nodup
  order : ∃ ls ts, i.intro = ls ++ ts ∧ (∀ p ∈ ls, p.kind = .lifetime) ∧ ∀ p ∈ ts, p.kind ≠ .lifetime
  defaults : ∀ p ∈ i.intro, p.default = none
  self : ∃ c, i.self = .con c (i.intro.map fun p => .param p.name)
  bounds : ∀ p ∈ i.intro, ∀ b ∈ p.bounds, Ty.Overs (i.intro.map (·.name)) b.args
  wheres : ∀ q ∈ i.wheres, q.subject.Over (i.intro.map (·.name)) ∧ Ty.Overs (i.intro.map (·.name)) q.bound.args
  assoc : ∀ t, i.assoc = some t → t.Over (i.intro.map (·.name))

end Verif.Generics
