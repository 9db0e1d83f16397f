import Verif.Dyn.DeriveModel
/-!
# Specification for C78: what the guide says about `#[derive_ReprC(dyn)]`

 - `/repo/guide/src/dyn_traits/derive_reprc_dyn.md`: which traits, and which parameters of the attribute;
 - `/repo/guide/src/dyn_traits/virtual_ptr.md`: the layout, and the table of conversions.
-/
namespace Verif.DynDerive

open Verif.Dyn (Coercible)

/-- The lists of parameters in the guide, with or without a comma at the end. -/
def guideArgs : List (List Tok) :=
  [[.dyn], [.dyn, .comma], [.dyn, .comma, .clone], [.dyn, .comma, .clone, .comma]]

/-- `Self` -/
abbrev Self' : RTy := .path false false [] "Self" none

/-- The types a receiver may have, whether it gives exclusive access, and whether it is pinned:
`&Self`, `&mut Self`, `Pin<&Self>`, `Pin<&mut Self>` (or any other path that ends in `Pin`, such as
`core::pin::Pin`). -/
inductive ReceiverTy : RTy → (mt pinned : Bool) → Prop
  | ref (mt) : ReceiverTy (.ref mt Self') mt false
  | pin (colon init mt) : ReceiverTy (.path false colon init "Pin" (some [some (.ref mt Self')])) mt true

/-- The first parameter of a method: `&self`, `&mut self`, or `self: T` where `T` is one of these types. -/
inductive IsReceiver : FnArg → (mt pinned : Bool) → Prop
  | short (mt) : IsReceiver (.receiver true mt) mt false
  | long {ty mt pinned} : ReceiverTy ty mt pinned → IsReceiver (.typed (some "self") ty) mt pinned

/-- The type of a parameter after the first one. -/
def FnArg.ty? : FnArg → Option RTy
  | .receiver _ _ => none
  | .typed _ ty => some ty

/-- The method `m` has the receiver `self` (exclusive? pinned?) and the other parameters have the types `tys`;
it is neither `const`, `async` nor variadic. -/
structure IsMethod (m : Method) (mt pinned : Bool) (tys : List RTy) : Prop where
  notConst : m.isConst = false
  notAsync : m.isAsync = false
  notVariadic : m.isVariadic = false
  params : ∃ self args, m.inputs = self :: args ∧ IsReceiver self mt pinned ∧ args.map (·.ty?) = tys.map some

/-- The names of the methods. -/
def methodNames : List Item → List String
  | [] => []
  | .method m :: its => m.name :: methodNames its
  | _ :: its => methodNames its

/-- The trait is "simple": it has only methods, all with such a receiver. (That methods have no type parameters
is checked by the compiler.) -/
def Simple (items : List Item) : Prop :=
  ∀ it ∈ items, ∃ m mt pinned tys, it = .method m ∧ IsMethod m mt pinned tys

/-- Some method has a receiver of this kind. -/
def Has (items : List Item) (mt pinned : Bool) : Prop :=
  ∃ m tys, Item.method m ∈ items ∧ IsMethod m mt pinned tys

/-- Some method has exclusive access. -/
def HasMut (items : List Item) : Prop := Has items true false ∨ Has items true true

/-- Some method has a pinned receiver. -/
def HasPin (items : List Item) : Prop := Has items false true ∨ Has items true true

/-- Some method has shared access. -/
def HasRef (items : List Item) : Prop := Has items false false ∨ Has items false true

/-- The field of the vtable for a method: the name of the method; a function of an erased pointer (shared or
exclusive, as the receiver) and of the C layouts of the parameters, in order, which returns the C layout of the
result. -/
inductive Slot : Item → String × Option FnTy → Prop
  | mk {m mt pinned tys} : IsMethod m mt pinned tys →
    Slot (.method m)
      (m.name, some ⟨if mt then .exclusive else .shared, tys,
        match m.output with | none => .unit | some t => .layout t⟩)

/-- The vtable as the guide lays it out: `release_vptr`, then `retain_vptr` if there is `Clone`, then the
methods in the order of the trait. (At the end is a marker without size.) -/
def IsVTable (clone : Bool) (items : List Item) (fields : List (String × Option FnTy)) : Prop :=
  ∃ slots : List (String × Option FnTy),
    fields = [("release_vptr", some ⟨.owned, [], .unit⟩)]
      ++ (if clone then [("retain_vptr", some ⟨.shared, [], .erased⟩)] else [])
      ++ slots ++ [("_invariant", none)] ∧
    slots.length = items.length ∧
    ∀ (i : Nat) (it : Item) (s : String × Option FnTy), items[i]? = some it → slots[i]? = some s → Slot it s

/-- `VirtualPtr<dyn Send? + Sync? + Trait>` implements `From<P<T>>`, if `T : Clone` when `needsClone`: the impl of
`From` demands an impl of `VirtualPtrFrom`. -/
def Converts (x : Expansion) (p : PtrTy) (send sync needsClone : Bool) : Prop :=
  p ∈ fromImpls ∧
  ∃ i ∈ x.impls, i.send = send ∧ i.sync = sync ∧ ∃ c ∈ i.from_, c.src = p ∧ c.needsClone = needsClone

/-- The guide's table of conversions. The first column is pinned iff some receiver is; the markers may be added
to each, except to that of `Rc`; `Arc` needs both. -/
def GuideConverts (clone hasMut hasPin : Bool) (p : PtrTy) (send sync needsClone : Bool) : Prop :=
  p.pin = hasPin ∧
  match p.ptr with
  | .box => needsClone = clone
  | .ref false => hasMut = false ∧ needsClone = false
  | .ref true => clone = false ∧ needsClone = false
  | .rc false => clone = true ∧ hasMut = false ∧ send = false ∧ sync = false ∧ needsClone = false
  | .rc true => clone = true ∧ hasMut = false ∧ send = true ∧ sync = true ∧ needsClone = false

/-- The trait as `Verif.Dyn` (C33, C34, C35) has it: the names of the methods and whether they have exclusive
access. -/
def IsDecl (clone : Bool) (items : List Item) (d : Verif.Dyn.Decl) : Prop :=
  d.clone = clone ∧ d.methods.length = items.length ∧
  ∀ (i : Nat) (it : Item) (x : String × Bool), items[i]? = some it → d.methods[i]? = some x →
    ∃ m pinned tys, it = Item.method m ∧ IsMethod m x.2 pinned tys ∧ x.1 = m.name

end Verif.DynDerive
