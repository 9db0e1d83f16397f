import Verif.Headers.Types
/-!
# Generic definitions

What `#[derive_ReprC]` generates for a struct with generic parameters: the generic parameters and the bounds of the
layout type and of the impls (`/repo/src/proc_macro/derives/repr_c/struct_.rs`, `/repo/src/proc_macro/derives/c_type/struct_.rs`,
`/repo/src/proc_macro/utils/_mod.rs`, `/repo/src/proc_macro/utils/trait_impl_shenanigans.rs`), and the names of the instances.

Simplifications: attributes of parameters, `?Sized`, higher-ranked bounds and the implicit `Sized` bounds are left out.
-/
namespace Verif.Generics

/-! ## Syntax (syn) -/

/-- `syn::Type`. Lifetimes and constants, where they are arguments, are written as types without arguments. `layout t` is
`CLayoutOf<t>`, that is `<t as ReprC>::CLayout`, /repo/src/layout/_mod.rs lines 177-178. -/
inductive Ty
  | param (x : String)
  | con (c : String) (args : List Ty)
  | layout (t : Ty)

/-- A trait with its arguments, or (`outlives`) the lifetime in `T : 'a`. -/
structure Bound where
  name : String
  args : List Ty

/-- `syn::WherePredicate`. -/
structure Pred where
  subject : Ty
  bound : Bound

inductive Kind | lifetime | type | const
deriving DecidableEq, Repr

/-- `syn::GenericParam`. -/
structure Param where
  name : String
  kind : Kind
  bounds : List Bound := []
  default : Option Ty := none

/-- `syn::Generics`. -/
structure Generics where
  params : List Param
  wheres : List Pred := []

/-- A struct as it is annotated: fields with names and types. -/
structure Def where
  name : String
  generics : Generics
  fields : List (String × Ty)

/-- The traits and the bound that the macros write. -/
def reprC : Bound := ⟨"ReprC", []⟩
@[inherit_doc reprC] def concreteReprC : Bound := ⟨"ConcreteReprC", []⟩
@[inherit_doc reprC] def hasNiche : Bound := ⟨"__HasNiche__", []⟩
@[inherit_doc reprC] def reprNapi : Bound := ⟨"ReprNapi", []⟩
@[inherit_doc reprC] def static : Bound := ⟨"outlives", [.con "'static" []]⟩

/-! ## syn -/

/-- `Generics::split_for_impl`: the parameters without defaults, lifetimes before the others; (syn) used in
/repo/src/proc_macro/derives/repr_c/struct_.rs lines 152-154, 252-254, 358-360, 434-436. -/
def Generics.intro (g : Generics) : List Param :=
  (g.params.filter (·.kind = .lifetime) ++ g.params.filter (·.kind ≠ .lifetime)).map ({ · with default := none })

/-- `Generics::split_for_impl`: the names, in the same order. (syn) -/
def Generics.fwd (g : Generics) : List Ty :=
  (g.params.filter (·.kind = .lifetime) ++ g.params.filter (·.kind ≠ .lifetime)).map (.param ·.name)

/-- `Generics::type_params`. (syn) -/
def Generics.typeParams (g : Generics) : List Param := g.params.filter (·.kind = .type)

/-! ## The macros -/

/-- `MySplit for Generics`, /repo/src/proc_macro/utils/_mod.rs lines 27-79: the parameters without bounds, lifetimes before
types, and all bounds as predicates. `none`: `unimplemented!("const generics")`. -/
def mySplit (g : Generics) : Option (List Param × List Pred) :=
  if g.params.any (·.kind = .const) then none else
  some ((g.params.filter (·.kind = .lifetime) ++ g.params.filter (·.kind = .type)).map ({ · with bounds := [] }),
    g.wheres ++ g.params.flatMap fun p => p.bounds.map fun b => ⟨.param p.name, b⟩)

/-- `ctype_generics`, /repo/src/proc_macro/utils/trait_impl_shenanigans.rs lines 30-63. -/
def ctypeGenerics (g : Generics) (tys : List Ty) : Generics :=
  { g with
    wheres := g.wheres ++ (g.typeParams.map (⟨.param ·.name, reprC⟩) ++ tys.map (⟨·, concreteReprC⟩)) }

/-- An impl: `impl<intro> trait for self where wheres { … }`; `assoc`: the associated type that it defines
(`CLayout`), if any. -/
structure Impl where
  intro : List Param
  trait : Bound
  self : Ty
  wheres : List Pred
  assoc : Option Ty := none

/-- A struct that is generated: name, generics and the types of its fields. -/
structure Item where
  name : String
  generics : Generics
  fields : List (String × Ty)

/-- What is generated. `projections`: the types `t` such that `CLayoutOf<t>` or a method of `<t as ReprC>` is written in
one of the bodies; `napi`: those such that an item of `<t as ReprNapi>` is. -/
structure Output where
  structs : List Item
  impls : List Impl
  projections : List Ty
  napi : List Ty := []

/-- An impl for the type `name` with the generics `g`: `split_for_impl` and what the macros make of it, e.g.
/repo/src/proc_macro/derives/repr_c/struct_.rs lines 155-164. -/
def implFor (g : Generics) (trait : Bound) (name : String) (assoc : Option Ty := none) : Impl :=
  ⟨g.intro, trait, .con name g.fwd, g.wheres, assoc⟩

/-- `CType`, `Clone`, `Copy` and `ReprC` for a layout type: /repo/src/proc_macro/derives/c_type/struct_.rs lines 151-169,
327-377. -/
def ctypeImpls (g : Generics) (name : String) : List Impl :=
  [implFor g ⟨"CType", []⟩ name, implFor g ⟨"Clone", []⟩ name, implFor g ⟨"Copy", []⟩ name,
   implFor g reprC name (some (.con name g.fwd))]

/-- The impl of `ReprNapi` for a layout type through the macro `CType!`: /repo/src/proc_macro/derives/c_type/struct_.rs lines
55-70, /repo/src/layout/macros.rs lines 96-134. `none`: a panic of the macro. -/
def jsImpl (g : Generics) (name : String) (tys : List Ty) : Option Impl :=
  (mySplit g).map fun (params, bounds) =>
    let names := params.map fun p => Ty.param p.name
    ⟨params.map ({ · with default := none }), reprNapi, .con name names,
      [⟨.con name names, static⟩] ++
      tys.flatMap (fun t => [⟨t, reprC⟩, ⟨.layout t, reprNapi⟩]) ++
      (params.filter (·.kind ≠ .lifetime)).flatMap (fun p => [⟨.param p.name, reprC⟩, ⟨.layout (.param p.name), reprNapi⟩]) ++
      bounds, none⟩

/-- `#[repr(C)]`: /repo/src/proc_macro/derives/repr_c/struct_.rs lines 82-206;
/repo/src/layout/macros.rs lines 134-222 for `napi`. `js`: the annotation is there and the
feature on. `none`: a panic of the macro. -/
def deriveC (js : Bool) (D : Def) : Option Output :=
  let tys := D.fields.map (·.2)
  let g := ctypeGenerics D.generics tys
  let layoutName := D.name ++ "_Layout"
  let layoutFields := D.fields.map fun f => (f.1, Ty.layout f.2)
  let jsImpls := if js then (jsImpl g layoutName (layoutFields.map (·.2))).map ([·]) else some []
  jsImpls.map fun impls =>
    { structs := [⟨layoutName, g, layoutFields⟩]
      impls := impls ++ ctypeImpls g layoutName ++ [implFor g reprC D.name (some (.con layoutName g.fwd))]
      projections := tys ++ D.generics.typeParams.map (.param ·.name)
      napi := if js then tys.map (.layout <| .layout ·) else [] }

/-- `#[repr(transparent)]`: /repo/src/proc_macro/derives/repr_c/struct_.rs lines 221-394,
/repo/src/proc_macro/derives/c_type/struct_.rs lines 178-325. `none`: no field. -/
def deriveTransparent (rename js : Bool) (D : Def) : Option Output :=
  match D.fields with
  | [] => none
  | (_, t) :: _ =>
    let g : Generics := { D.generics with wheres := D.generics.wheres ++ [⟨t, reprC⟩] }
    let niche : Generics := { g with wheres := g.wheres ++ [⟨t, hasNiche⟩] }
    let layoutName := D.name ++ "_Layout"
    some <| if rename then
      { structs := [⟨layoutName, g, [("0", .layout t), ("1", .layout (.con "PhantomData" [.con layoutName g.fwd]))]⟩]
        impls := ctypeImpls g layoutName ++ (if js then [implFor g reprNapi layoutName] else []) ++
          [implFor g reprC D.name (some (.con layoutName g.fwd)), implFor niche hasNiche D.name]
        projections := [t, .con "PhantomData" [.con layoutName g.fwd]]
        napi := if js then [.layout t] else [] }
    else
      { structs := []
        impls := [implFor g reprC D.name (some (.layout t)), implFor niche hasNiche D.name]
        projections := [t] }

/-- `#[repr(opaque)]`: /repo/src/proc_macro/derives/repr_c/struct_.rs lines 396-581. -/
def deriveOpaque (D : Def) : Output :=
  let g := D.generics
  let opaqueName := "__opaque_" ++ D.name
  { structs := [⟨opaqueName, { g with params := g.intro }, []⟩]
    impls := implFor g reprC D.name (some (.con opaqueName g.fwd)) :: ctypeImpls g opaqueName
    projections := [] }

/-! ## Names of the instances -/

mutual
/-- Substitution. -/
def Ty.subst (σ : String → Ty) : Ty → Ty
  | .param x => σ x
  | .con c args => .con c (Ty.substs σ args)
  | .layout t => .layout (t.subst σ)
@[inherit_doc Ty.subst]
def Ty.substs (σ : String → Ty) : List Ty → List Ty
  | [] => []
  | t :: ts => t.subst σ :: Ty.substs σ ts
end

/-- `short_name` of the layout of a `#[repr(C)]` struct: /repo/src/proc_macro/derives/c_type/struct_.rs lines 78-109. `base`: the
name or rename; `lay`: the C layout of the closed types; `b`: the names of the declared types. -/
def shortName (b : Nat → List Char) (lay : Ty → Headers.CTy) (base : List Char)
    (g : Generics) (σ : String → Ty) :
    List Char :=
  base ++ g.typeParams.flatMap fun p => '_' :: Headers.short b (lay (.layout (σ p.name)))

/-- `short_name` of the layout of a renamed `#[repr(transparent)]` struct: /repo/src/proc_macro/derives/c_type/struct_.rs lines
228-232. -/
def aliasName (rename : List Char) (_ : Generics) (_ : String → Ty) : List Char := rename

end Verif.Generics
