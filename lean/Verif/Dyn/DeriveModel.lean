import Verif.Dyn.Model
/-!
# `#[derive_ReprC(dyn)]`: what it accepts and what it generates

Model of `src/proc_macro/derives/dyn_trait/{_mod,args,receiver_types,vtable_entry,coercions}.rs` as a
function from the syntax of a trait to the definitions it generates, and of the `From` impls of
`src/dyn_traits/_mod.rs`.

What the generated functions do when they run is in `Verif.Dyn.Model`.

Simplifications. Lifetimes, and the generic parameters and super-traits of the trait itself, are left out: the
macro copies them. Attributes of methods are left out. Error messages are kept, their spans are not.
-/
namespace Verif.DynDerive

open Verif.Dyn (Coercible FnPtr)

/-! ## Syntax -/

/-- `syn::Type` as `src/proc_macro/derives/dyn_trait/receiver_types.rs` lines 66-180 looks at it: a path
(with a `<T as Trait>` part? with a leading `::`? the segments before the last one, the last one, and its `<…>`
arguments, `none` for those that are not types), a reference, anything else. A last segment with
parenthesised arguments has the same effect as one with the arguments `<>`. -/
inductive RTy
  | path (qself colon : Bool) (init : List String) (last : String) (args : Option (List (Option RTy)))
  | ref (mt : Bool) (elem : RTy)
  | other (s : String)

/-- `syn::FnArg`: `self`, `&self`, `&mut self`, `mut self`; or a pattern, which may be an identifier, with a
type. (syntax) The input of `/repo/src/proc_macro/derives/dyn_trait/receiver_types.rs` lines 23-64. -/
inductive FnArg
  | receiver (ref mt : Bool)
  | typed (pat : Option String) (ty : RTy)

/-- `syn::TraitItemMethod`. `generics`: the number of type and const parameters. (syntax) The input of
`/repo/src/proc_macro/derives/dyn_trait/vtable_entry.rs` lines 239-256. -/
structure Method where
  name : String
  isConst : Bool
  isAsync : Bool
  isVariadic : Bool
  generics : Nat
  inputs : List FnArg
  output : Option RTy

/-- `syn::TraitItem`. (syntax) The input of `/repo/src/proc_macro/derives/dyn_trait/vtable_entry.rs` lines 223-437. -/
inductive Item
  | method (m : Method)
  | type (name : String)
  | const (name : String)
  | other

/-- A token of the arguments of the attribute. (syntax) The input of `/repo/src/proc_macro/derives/dyn_trait/args.rs` lines 36-74. -/
inductive Tok | dyn | clone | comma | other
  deriving DecidableEq, Repr

/-- How an expansion fails: a compile error, or a panic of the macro. `src/proc_macro/utils/macros.rs`
(`bail!`) and the `unreachable!`s of `/repo/src/proc_macro/derives/dyn_trait/vtable_entry.rs`. -/
inductive Failure
  | bail (msg : String)
  | panic
  deriving DecidableEq, Repr

/-! ## Arguments -/

/-- `Args::parse`, the loop: `/repo/src/proc_macro/derives/dyn_trait/args.rs` lines 53-68. The error made at lines 60-62 for a second `Clone` is
not returned, so that it has no effect. The comma after a parameter is optional (line 67). -/
def parseRest (clone : Bool) : List Tok → Except Failure Bool
  | [] => .ok clone
  | .dyn :: _ => .error (.bail "duplicate parameter")
  | .clone :: .comma :: ts => parseRest true ts
  | .clone :: ts => parseRest true ts
  | _ => .error (.bail "expected `Clone`")

/-- `Args::parse`, `/repo/src/proc_macro/derives/dyn_trait/args.rs` lines 36-74: whether there is a `Clone`. -/
def parseArgs : List Tok → Except Failure Bool
  | .dyn :: .comma :: ts => parseRest false ts
  | .dyn :: ts => parseRest false ts
  | _ => .error (.bail "expected `dyn` — usage: `#[derive_ReprC(dyn, …)]`")

/-! ## Receivers -/

/-- `ReceiverKind`, `/repo/src/proc_macro/derives/dyn_trait/receiver_types.rs` lines 5-10. -/
inductive Kind
  | reference (mt : Bool)
  | box
  | arc
  deriving DecidableEq, Repr

/-- `ReceiverType`, `/repo/src/proc_macro/derives/dyn_trait/receiver_types.rs` lines 12-19. -/
structure Receiver where
  kind : Kind
  pinned : Bool
  deriving DecidableEq, Repr

/-- `is_Self`, `/repo/src/proc_macro/derives/dyn_trait/receiver_types.rs` lines 80-84. -/
def RTy.isSelf : RTy → Bool
  | .path false false [] "Self" none => true
  | _ => false

/-- `ReceiverType::from_type_of_self`, `/repo/src/proc_macro/derives/dyn_trait/receiver_types.rs` lines 66-180. (The replacement of the path by one of
safer_ffi's, lines 163-171, is left out.) -/
def fromSelfTy (pinned : Bool) (t : RTy) : Except Failure Receiver :=
  if t.isSelf then .error (.bail "owned `Self` receiver is not `dyn` safe")
  else match t with
    | .ref mt pointee =>
      if pointee.isSelf then .ok ⟨.reference mt, pinned⟩
      else .error (.bail "arbitrary `Self` types are not supported")
    | .path false _ _ last (some [some inner]) =>
      if last = "Box" && inner.isSelf then .ok ⟨.box, pinned⟩
      else if last = "Arc" && inner.isSelf then .ok ⟨.arc, pinned⟩
      else if pinned then .error (.bail "expected one of `&`, `&mut`, `Box<_>`, or `Arc<_>`")
      else if last = "Pin" then fromSelfTy true inner
      else .error (.bail "expected one of `&`, `&mut`, `Box<_>`, `Arc<_>`, or `Pin<_>`")
    | .path false _ _ _ _ =>
      if pinned then .error (.bail "expected one of `&`, `&mut`, `Box<_>`, or `Arc<_>`")
      else .error (.bail "expected one of `&`, `&mut`, `Box<_>`, `Arc<_>`, or `Pin<_>`")
    | _ => .error (.bail "arbitrary `Self` types are not supported")

/-- The type `Self`, `/repo/src/proc_macro/derives/dyn_trait/receiver_types.rs` lines 37-40. -/
def selfTy : RTy := .path false false [] "Self" none

/-- `ReceiverType::from_fn_arg`, `/repo/src/proc_macro/derives/dyn_trait/receiver_types.rs` lines 22-64. -/
def fromFnArg : FnArg → Except Failure Receiver
  | .receiver ref mt => fromSelfTy false (if ref then .ref mt selfTy else selfTy)
  | .typed (some "self") ty => fromSelfTy false ty
  | .typed _ _ => .error (.bail "expected `self`")

/-! ## Entries of the vtable -/

/-- The pointer types of the first argument: `NonNullRef`, `NonNullMut`, `NonNullOwned` of the erased type.
`src/ptr.rs` lines 8-40, used at `/repo/src/proc_macro/derives/dyn_trait/vtable_entry.rs` lines 357-377. -/
inductive Erased | shared | exclusive | owned
  deriving DecidableEq, Repr

/-- Result types of the functions in the vtable: `CLayoutOf<T>` (of `()` for none), or an owned erased
pointer. `/repo/src/proc_macro/derives/dyn_trait/vtable_entry.rs` line 126, `/repo/src/proc_macro/derives/dyn_trait/_mod.rs` lines 170-179. -/
inductive Ret
  | unit
  | layout (t : RTy)
  | erased

/-- Type of a function pointer of the vtable: `unsafe extern "C" fn(self, args…) -> ret`, the arguments
being the C layouts of these types. `/repo/src/proc_macro/derives/dyn_trait/vtable_entry.rs` lines 127-136, `/repo/src/proc_macro/derives/dyn_trait/_mod.rs` lines 163-179. -/
structure FnTy where
  self : Erased
  args : List RTy
  ret : Ret

/-- `VTableEntry::VirtualMethod`, `/repo/src/proc_macro/derives/dyn_trait/vtable_entry.rs` lines 5-17. -/
structure Entry where
  name : String
  receiver : Receiver
  argNames : List String
  erased : Erased
  argTys : List RTy
  out : Option RTy

/-- The parameters after the first one, `/repo/src/proc_macro/derives/dyn_trait/vtable_entry.rs` lines 347-354, 382-385: a receiver there panics
(the parser does not allow one). -/
def typedArgs : List FnArg → Except Failure (List RTy)
  | [] => .ok []
  | .receiver _ _ :: _ => .error .panic
  | .typed _ ty :: as => do
    let tys ← typedArgs as
    .ok (ty :: tys)

/-- `ErasedSelf`, `/repo/src/proc_macro/derives/dyn_trait/vtable_entry.rs` lines 357-377. -/
def Kind.erased : Kind → Erased
  | .reference true => .exclusive
  | .reference false => .shared
  | .box | .arc => .owned

/-- One method: `/repo/src/proc_macro/derives/dyn_trait/vtable_entry.rs` lines 239-395. -/
def methodEntry (m : Method) : Except Failure Entry :=
  if m.isConst then .error (.bail "not `dyn`-safe")
  else if m.isAsync then .error (.bail "not `dyn`-safe")
  else if m.isVariadic then .error (.bail "not `dyn`-safe")
  else match m.inputs with
    | [] => .error (.bail "`dyn` trait requires a `self` receiver on this method")
    | self :: args => do
      let receiver ← fromFnArg self
      match receiver.kind with
      | .reference _ =>
        let tys ← typedArgs args
        .ok {
          name := m.name
          receiver
          argNames := (List.range m.inputs.length).tail.map fun i => "__arg" ++ toString i
          erased := receiver.kind.erased
          argTys := tys
          out := m.output }
      | _ => .error (.bail "non-reference receivers are not supported yet")

/-- `vtable_entries`, `/repo/src/proc_macro/derives/dyn_trait/vtable_entry.rs` lines 223-437: one item. -/
def itemEntry : Item → Except Failure Entry
  | .method m => methodEntry m
  | .type _ => .error (.bail "not supported yet (TBD)")
  | .const _ => .error (.bail "unsupported")
  | .other => .error (.bail "unsupported")

/-- `vtable_entries`, `/repo/src/proc_macro/derives/dyn_trait/vtable_entry.rs` lines 223-437: `filter_map(…).collect()` stops at the first error. -/
def vtableEntries : List Item → Except Failure (List Entry)
  | [] => .ok []
  | it :: its => do
    let e ← itemEntry it
    let es ← vtableEntries its
    .ok (e :: es)

/-- `OutputTy`, `/repo/src/proc_macro/derives/dyn_trait/vtable_entry.rs` lines 126, 388-391. -/
def outTy : Option RTy → Ret
  | none => .unit
  | some t => .layout t

/-- `VTableEntry::type_and_value`, the type: `/repo/src/proc_macro/derives/dyn_trait/vtable_entry.rs` lines 127-136. -/
def Entry.slotTy (e : Entry) : FnTy := ⟨e.erased, e.argTys, outTy e.out⟩

/-- `VTableEntry::type_and_value`, the value: the signature of the function that is generated,
`/repo/src/proc_macro/derives/dyn_trait/vtable_entry.rs` lines 195-203. -/
def Entry.thunkTy (e : Entry) : FnTy := ⟨e.erased, (e.argNames.zip e.argTys).map (·.2), outTy e.out⟩

/-- A generated method of `VirtualPtr`: its name and parameters; the field of the vtable it calls, with its
pointer and these parameters. `/repo/src/proc_macro/derives/dyn_trait/vtable_entry.rs` lines 33-85. -/
structure VMethod where
  name : String
  params : List String
  callee : String
  passes : List String
  deriving DecidableEq, Repr

/-- `VTableEntry::virtual_forwarding`, `/repo/src/proc_macro/derives/dyn_trait/vtable_entry.rs` lines 33-85: the parameters of
the method are renamed (lines 52-64), and passed on (lines 72-78). -/
def Entry.forward (e : Entry) : VMethod := ⟨e.name, e.argNames, e.name, e.argNames⟩

/-! ## The vtable -/

/-- `release_vptr`, `/repo/src/proc_macro/derives/dyn_trait/_mod.rs` lines 163-169. -/
def releaseTy : FnTy := ⟨.owned, [], .unit⟩
/-- `retain_vptr`, `/repo/src/proc_macro/derives/dyn_trait/_mod.rs` lines 170-179. -/
def retainTy : FnTy := ⟨.shared, [], .erased⟩

/-- The struct `#VTableName`, `/repo/src/proc_macro/derives/dyn_trait/_mod.rs` lines 155-193; `none` is the type of the marker `_invariant`, a
`PhantomData`. -/
def vtableDef (clone : Bool) (es : List Entry) : List (String × Option FnTy) :=
  ("release_vptr", some releaseTy) ::
  ((if clone then [("retain_vptr", some retainTy)] else []) ++
   (es.map (fun e => (e.name, some e.slotTy)) ++ [("_invariant", none)]))

/-! ## Receivers, all methods together -/

/-- `has_mutability`, `/repo/src/proc_macro/derives/dyn_trait/_mod.rs` lines 195-207. -/
def hasMutability (mt : Bool) (es : List Entry) : Bool :=
  es.any fun e => match e.receiver.kind with
    | .reference m => m == mt
    | _ => false

/-- `has_pin`, `/repo/src/proc_macro/derives/dyn_trait/_mod.rs` lines 208-238. -/
def hasPin (es : List Entry) : Bool := es.any (·.receiver.pinned)

/-- `has_non_pin_non_ref`, `/repo/src/proc_macro/derives/dyn_trait/_mod.rs` lines 208-238. -/
def hasNonPinNonRef (es : List Entry) : Bool :=
  es.any fun e => match e.receiver with
    | ⟨_, true⟩ => false
    | ⟨.reference false, false⟩ => false
    | _ => true

/-! ## Impls -/

/-- The facts the generated impls depend on: `Env`, `/repo/src/proc_macro/derives/dyn_trait/coercions.rs` lines 273-312. -/
structure Env where
  clone : Bool
  send : Bool
  sync : Bool
  hasMut : Bool
  hasPin : Bool
  deriving DecidableEq, Repr

/-- `Coercible::is_eligible`, `/repo/src/proc_macro/derives/dyn_trait/coercions.rs` lines 20-39. -/
def eligible (e : Env) : Coercible → Bool
  | .box => true
  | .rc threadSafe => !e.hasMut && (threadSafe == e.send && e.send == e.sync)
  | .ref true => !e.clone
  | .ref false => !e.hasMut && (e.sync == e.send)

/-- A pointer type, pinned or not: `Coercible::as_type`, `/repo/src/proc_macro/derives/dyn_trait/coercions.rs` lines 234-270. -/
structure PtrTy where
  pin : Bool
  ptr : Coercible
  deriving DecidableEq, Repr

/-- A function in the vtable: which one, its type, its parameters after the erased pointer, and the
parameters it passes to the method it calls after the receiver (`/repo/src/proc_macro/derives/dyn_trait/vtable_entry.rs` lines 195-211). -/
structure Fn where
  ptr : FnPtr
  ty : FnTy
  params : List String := []
  passes : List String := []

/-- `VTableEntry::type_and_value`, the value: the function that is generated calls the method of the same
name of the impl (`#QSelf::#name`). `/repo/src/proc_macro/derives/dyn_trait/vtable_entry.rs` lines 195-214. -/
def Entry.thunk (e : Entry) (t : Nat) : Fn := ⟨.method t e.name, e.thunkTy, e.argNames, e.argNames⟩

/-- The field `release_vptr` of the value of the vtable and the function in it, `/repo/src/proc_macro/derives/dyn_trait/coercions.rs` lines 84-151. -/
def releaseFn (e : Env) (t : Nat) (src : Coercible) : List (String × Fn) :=
  if eligible e src then
    match src with
    | .box => [("release_vptr", {ptr := .dropBox t, ty := ⟨.owned, [], .unit⟩})]
    | .rc threadSafe => [("release_vptr", {ptr := .dropRc threadSafe t, ty := ⟨.owned, [], .unit⟩})]
    | .ref _ => [("release_vptr", {ptr := .noOp, ty := ⟨.owned, [], .unit⟩})]
  else []

/-- The field `retain_vptr`, `/repo/src/proc_macro/derives/dyn_trait/coercions.rs` lines 153-232. -/
def retainFn (e : Env) (t : Nat) (src : Coercible) : List (String × Fn) :=
  if eligible e src then
    match src with
    | .box => [("retain_vptr", {ptr := .cloneBox t, ty := ⟨.shared, [], .erased⟩})]
    | .rc threadSafe => [("retain_vptr", {ptr := .incRc threadSafe t, ty := ⟨.shared, [], .erased⟩})]
    | .ref true => []
    | .ref false => [("retain_vptr", {ptr := .copy, ty := ⟨.shared, [], .erased⟩})]
  else []

/-- An impl of `VirtualPtrFrom`: from which pointer, whether the pointee must be `Clone`, and the vtable for
the pointee type `t` (without the marker `_invariant`). `/repo/src/proc_macro/derives/dyn_trait/_mod.rs` lines 329-377. -/
structure Conversion where
  src : PtrTy
  needsClone : Bool
  table : Nat → List (String × Fn)

/-- `vtable_expr`, `/repo/src/proc_macro/derives/dyn_trait/_mod.rs` lines 329-341. -/
def vtableExpr (e : Env) (es : List Entry) (src : Coercible) (t : Nat) : List (String × Fn) :=
  releaseFn e t src ++
  ((if e.clone then retainFn e t src else []) ++
   es.map fun en => (en.name, en.thunk t))

/-- The sources, `/repo/src/proc_macro/derives/dyn_trait/_mod.rs` lines 60-66. -/
def coercibles : List Coercible := [.box, .ref false, .ref true, .rc true, .rc false]

/-- The impls of `VirtualPtrFrom` for `dyn Send? + Sync? + Trait`, `/repo/src/proc_macro/derives/dyn_trait/_mod.rs` lines 342-377. -/
def conversions (e : Env) (es : List Entry) : List Conversion :=
  (coercibles.filter (eligible e)).map fun src =>
    { src := ⟨e.hasPin, src⟩
      needsClone := e.clone && src == .box
      table := vtableExpr e es src }

/-- The impls for one choice of markers: `ReprCTrait` (always), `DynClone`, the trait itself, and
`VirtualPtrFrom`. `/repo/src/proc_macro/derives/dyn_trait/_mod.rs` lines 378-428. -/
structure Impl where
  send : Bool
  sync : Bool
  dynClone : Bool
  methods : List VMethod
  from_ : List Conversion

/-- The choices of markers, `/repo/src/proc_macro/derives/dyn_trait/_mod.rs` lines 251-266. -/
def markers (hasRef : Bool) : List (Bool × Bool) :=
  [(false, false), (true, true), (true, false), (false, true)].filter fun (send, sync) =>
    if sync && !send then false
    else if hasRef && send && !sync then false
    else true

/-- What is generated beside the trait. -/
structure Expansion where
  vtable : List (String × Option FnTy)
  impls : List Impl

/-- `try_handle_trait`, `/repo/src/proc_macro/derives/dyn_trait/_mod.rs` lines 47-442. -/
def expand (args : List Tok) (items : List Item) : Except Failure Expansion := do
  let clone ← parseArgs args
  let es ← vtableEntries items
  if hasPin es && hasNonPinNonRef es then
    .error (.bail "`Pin<>` receivers can only be mixed with `&self` receivers")
  else
    .ok {
      vtable := vtableDef clone es
      impls := (markers (hasMutability false es)).map fun (send, sync) =>
        let e : Env := ⟨clone, send, sync, hasMutability true es, hasPin es⟩
        { send, sync
          dynClone := clone
          methods := es.map (·.forward)
          from_ := conversions e es } }

/-! ## `src/dyn_traits/_mod.rs` -/

/-- The pointer types `P` with an impl `From<P> for VirtualPtr<D>`, for every `D : VirtualPtrFrom<P>`:
`src/dyn_traits/_mod.rs` lines 62-99 (with all features). -/
def fromImpls : List PtrTy :=
  [⟨false, .ref false⟩, ⟨false, .ref true⟩, ⟨true, .ref false⟩, ⟨true, .ref true⟩,
   ⟨false, .box⟩, ⟨true, .box⟩, ⟨false, .rc false⟩, ⟨false, .rc true⟩]

end Verif.DynDerive
