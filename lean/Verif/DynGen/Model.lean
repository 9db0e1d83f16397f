import Verif.Generics.Model
/-!
# `#[derive_ReprC(dyn)]` on generic traits

Model of how `/repo/src/proc_macro/derives/dyn_trait/` treats the generic parameters of the trait: the parameters that each
generated item declares, and those that it is used with. What the items do is the subject of `Verif.Dyn`.

Simplifications. The methods have no generic parameters but lifetimes (others are not `dyn`-safe); their receivers are
references. `Pin` is left out: it is written around the pointer types and changes no parameters.
-/
namespace Verif.DynGen
open Generics

/-- A method: the types of its arguments after the receiver, and of its result. (syntax) The input of
/repo/src/proc_macro/derives/dyn_trait/vtable_entry.rs lines 231-383. -/
structure Method where
  name : String
  mutable : Bool
  lifetimes : List String := []
  args : List Ty
  ret : Option Ty

/-- A trait. `clone`: `#[derive_ReprC(dyn, Clone)]`. (syntax) The input of
/repo/src/proc_macro/derives/dyn_trait/_mod.rs lines 47-93. -/
structure Trait where
  name : String
  generics : Generics
  methods : List Method
  clone : Bool

/-- /repo/src/proc_macro/derives/dyn_trait/_mod.rs lines 114-116. -/
def usability : Param := { name := "'__usability", kind := .lifetime }

/-- `t : 'lt`. (syntax) -/
def outlives (lt : Ty) : Bound := ⟨"outlives", [lt]⟩

/-- `trait_generics_and_lt`: /repo/src/proc_macro/derives/dyn_trait/_mod.rs lines 112-132. -/
def Trait.withLt (T : Trait) : Generics :=
  { params := usability :: T.generics.params
    wheres := T.generics.wheres ++ T.generics.typeParams.map fun p => ⟨.param p.name, outlives (.param usability.name)⟩ }

/-- Which of `Send` and `Sync` are written: /repo/src/proc_macro/derives/dyn_trait/_mod.rs lines 251-271. -/
structure Auto where
  send : Bool
  sync : Bool

/-- /repo/src/proc_macro/derives/dyn_trait/_mod.rs lines 266-271. -/
def Auto.bounds (a : Auto) : List Bound :=
  (if a.send then [⟨"Send", []⟩] else []) ++ (if a.sync then [⟨"Sync", []⟩] else [])

/-- The name of the type constructor of `dyn '__usability + Send + Sync + Trait<…>`. (syntax) -/
def Auto.text (a : Auto) : String := "dyn " ++ (if a.send then "Send + " else "") ++ (if a.sync then "Sync + " else "")

/-- `dyn #Trait`: /repo/src/proc_macro/derives/dyn_trait/_mod.rs lines 272-274. -/
def Trait.dyn (T : Trait) (a : Auto) : Ty := .con (a.text ++ T.name) (.param usability.name :: T.generics.fwd)

/-- `impl_Trait : #Trait`: /repo/src/proc_macro/derives/dyn_trait/_mod.rs lines 110, 282-284. -/
def Trait.implParam (T : Trait) (a : Auto) : Param :=
  { name := "__impl_" ++ T.name
    kind := .type
    bounds := outlives (.param usability.name) :: a.bounds ++ [⟨T.name, T.generics.fwd⟩] }

/-- `all_generics`: /repo/src/proc_macro/derives/dyn_trait/_mod.rs lines 276-284. The new parameter is inserted at the number of
lifetimes and types. -/
def Trait.all (T : Trait) (a : Auto) : Generics :=
  let g := T.withLt
  let n := (g.params.filter (·.kind = .lifetime)).length + g.typeParams.length
  { g with params := g.params.take n ++ T.implParam a :: g.params.drop n }

/-- The pointers that are coerced: /repo/src/proc_macro/derives/dyn_trait/coercions.rs lines 12-17. -/
inductive Src | box | rc | arc | ref | refMut
deriving DecidableEq

/-- `as_type`: /repo/src/proc_macro/derives/dyn_trait/coercions.rs lines 233-270. -/
def Src.type (T : Trait) (a : Auto) : Src → Ty
  | .box => .con "Box" [.param (T.implParam a).name]
  | .rc => .con "Rc" [.param (T.implParam a).name]
  | .arc => .con "Arc" [.param (T.implParam a).name]
  | .ref => .con "&" [.param usability.name, .param (T.implParam a).name]
  | .refMut => .con "&mut" [.param usability.name, .param (T.implParam a).name]

/-- A generic function that is defined in an expression, and the arguments at which it is named there:
`{ fn name<params>(…) where wheres { … } name::<args> }`. -/
structure Fn where
  name : String
  params : List Param
  wheres : List Pred
  args : List Param

/-- /repo/src/proc_macro/derives/dyn_trait/_mod.rs lines 287-306: with `Clone`, the pointee is also required to be `Clone`. -/
def Trait.wheresClone (T : Trait) (a : Auto) : List Pred :=
  (T.all a).wheres ++ if T.clone then [⟨.param (T.implParam a).name, ⟨"Clone", []⟩⟩] else []

/-- `fwd_all_generics`, as parameters. (syn) /repo/src/proc_macro/derives/dyn_trait/_mod.rs lines 285-287. -/
def fwdParams (g : Generics) : List Param :=
  g.params.filter (·.kind = .lifetime) ++ g.params.filter (·.kind ≠ .lifetime)

/-- `release_vptr`: /repo/src/proc_macro/derives/dyn_trait/coercions.rs lines 83-151. -/
def Src.release (T : Trait) (a : Auto) : Src → Fn
  | .box => ⟨"drop_box", (T.all a).intro, (T.all a).wheres, fwdParams (T.all a)⟩
  | .rc | .arc => ⟨"drop_ref_count", (T.all a).intro, (T.all a).wheres, fwdParams (T.all a)⟩
  | .ref | .refMut => ⟨"no_op", [], [], []⟩

/-- `retain_vptr`: /repo/src/proc_macro/derives/dyn_trait/coercions.rs lines 153-231. -/
def Src.retain (T : Trait) (a : Auto) : Src → List Fn
  | .box => [⟨"clone_box", (T.all a).intro, T.wheresClone a, fwdParams (T.all a)⟩]
  | .rc | .arc => [⟨"inc_ref_count", (T.all a).intro, (T.all a).wheres, fwdParams (T.all a)⟩]
  | .refMut => []
  | .ref => [⟨"copy", [], [], []⟩]

/-- The function of a method: /repo/src/proc_macro/derives/dyn_trait/vtable_entry.rs lines 137-217. The arguments are the types, then
the constants; lifetimes are left out. -/
def Trait.thunk (T : Trait) (a : Auto) (m : Method) : Fn :=
  let g := T.all a
  { name := m.name
    params := g.intro
    wheres := g.wheres ++ (g.params.filter (·.kind = .lifetime)).map fun p => ⟨.param p.name, ⟨"outlives", []⟩⟩
    args := g.typeParams ++ g.params.filter (·.kind = .const) }

/-- The functions in a vtable: /repo/src/proc_macro/derives/dyn_trait/_mod.rs lines 329-341. -/
def Trait.functions (T : Trait) (a : Auto) (s : Src) : List Fn :=
  s.release T a :: (if T.clone then s.retain T a else []) ++ T.methods.map (T.thunk a)

/-- `CType`: /repo/src/proc_macro/derives/dyn_trait/_mod.rs lines 442-456: the C layout of the type with `'static` for every
lifetime. -/
def Trait.ctype (T : Trait) (m : Method) (t : Ty) : Ty :=
  .layout (t.subst fun x =>
    if x ∈ m.lifetimes ∨ x ∈ (T.generics.params.filter (·.kind = .lifetime)).map (·.name) then .con "'static" [] else .param x)

/-- `()`. (syntax) -/
def unit : Ty := .con "()" []

/-- `ErasedSelf`: /repo/src/proc_macro/derives/dyn_trait/vtable_entry.rs lines 350-371. -/
def erasedSelf (mutable : Bool) : Ty := .con (if mutable then "NonNullMut" else "NonNullRef") [.con "ErasedTy" []]

/-- The type of an entry: /repo/src/proc_macro/derives/dyn_trait/vtable_entry.rs lines 124-135. -/
def Trait.entry (T : Trait) (m : Method) : Ty :=
  .con "fn" (erasedSelf m.mutable :: m.args.map (T.ctype m) ++ [T.ctype m (m.ret.getD unit)])

/-- `#VTableName`, as it is handed to `derive_ReprC`: /repo/src/proc_macro/derives/dyn_trait/_mod.rs lines 136-193. -/
def Trait.vtable (T : Trait) : Def :=
  { name := T.name ++ "VTable"
    generics := { params := T.withLt.intro, wheres := T.generics.wheres }
    fields :=
      ("release_vptr", .con "fn" [.con "NonNullOwned" [.con "ErasedTy" []], unit]) ::
      (if T.clone then
        [("retain_vptr", .con "fn" [.con "NonNullRef" [.con "ErasedTy" []], .con "NonNullOwned" [.con "ErasedTy" []]])] else []) ++
      T.methods.map (fun m => (m.name, T.entry m)) ++
      [("_invariant", .con "PhantomData" [.con "*mut" [.con "tuple"
        ((T.withLt.params.filter (·.kind = .lifetime)).map (fun p => .con "IdentityIgnoring" [.param p.name]) ++
          T.withLt.typeParams.map (.param ·.name))]])] }

/-- `impl ReprCTrait for dyn Trait`: /repo/src/proc_macro/derives/dyn_trait/_mod.rs lines 379-395. -/
def Trait.reprCTrait (T : Trait) (a : Auto) : Impl :=
  ⟨T.withLt.intro, ⟨"ReprCTrait", []⟩, T.dyn a, T.generics.wheres, some (.con T.vtable.name T.withLt.fwd)⟩

/-- `impl DynClone for dyn Trait`: /repo/src/proc_macro/derives/dyn_trait/_mod.rs lines 397-416. Only the lifetime is declared. -/
def Trait.dynClone (T : Trait) (a : Auto) : Impl := ⟨[usability], ⟨"DynClone", []⟩, T.dyn a, [], none⟩

/-- `impl Trait for VirtualPtr<dyn Trait>`: /repo/src/proc_macro/derives/dyn_trait/_mod.rs lines 418-425. -/
def Trait.forward (T : Trait) (a : Auto) : Impl :=
  ⟨T.withLt.intro, ⟨T.name, T.generics.fwd⟩, .con "VirtualPtr" [T.dyn a], T.generics.wheres, none⟩

/-- `impl VirtualPtrFrom<…> for dyn Trait`: /repo/src/proc_macro/derives/dyn_trait/_mod.rs lines 342-376. -/
def Trait.from (T : Trait) (a : Auto) (s : Src) : Impl :=
  ⟨(T.all a).intro, ⟨"VirtualPtrFrom", [s.type T a]⟩, T.dyn a, if s = .box then T.wheresClone a else (T.all a).wheres, none⟩

/-- The impls, given the pointers that are eligible: /repo/src/proc_macro/derives/dyn_trait/_mod.rs lines 378-430. -/
def Trait.impls (T : Trait) (a : Auto) (srcs : List Src) : List Impl :=
  T.reprCTrait a :: (if T.clone then [T.dynClone a] else []) ++ T.forward a :: srcs.map (T.from a)

/-- The types between which the values of a method are transmuted. In the forwarding method: arguments to their layouts, and
the layout of the result to the result; in the function: the result to its layout.
/repo/src/proc_macro/derives/dyn_trait/vtable_entry.rs lines 67-82, 204-212. -/
def Trait.transmutes (T : Trait) (m : Method) : List (Ty × Ty) :=
  m.args.map (fun t => (t, T.ctype m t)) ++
    [(T.ctype m (m.ret.getD unit), m.ret.getD unit), (m.ret.getD unit, T.ctype m (m.ret.getD unit))]

end Verif.DynGen
