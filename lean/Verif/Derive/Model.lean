import Verif.Layout.Model
/-
Model of the decisions of `#[derive_ReprC]` on structs, enums and unions: which
definitions it accepts, and which C layout it generates for them.

 - /repo/src/proc_macro/derives/_mod.rs l.18-135 (`derive_ReprC`, `feed_to_macro_rules`);
 - /repo/src/proc_macro/derives/repr_c/_mod.rs, /repo/src/proc_macro/derives/repr_c/args.rs, /repo/src/proc_macro/derives/repr_c/struct_.rs, /repo/src/proc_macro/derives/repr_c/enum_.rs;
 - /repo/src/proc_macro/derives/handle_fptr.rs (newtypes of function pointers);
 - /repo/src/layout/macros.rs l.291-346 (`ReprC!`, the legacy syntax).

Simplifications.  A definition is one instance of a generic one, so that field
types are types of `Verif.Layout`; a `call` hint has one number as its argument;
the generated text is reduced to the data on which layout and acceptance depend
(the text of headers is in `Verif.Headers`).  `#[derive_ReprC(dyn)]` on traits
is in `Verif.Dyn`.
-/
namespace Verif.Derive

open Verif.Layout (Ty CTy IntTy Target clayout clayouts clay clays)

/-- One entry of a `#[repr(…)]` list: `C`, `packed`, or `align(8)`. (syntax) -/
inductive Hint
  | word (s : String)
  | call (s : String) (n : Nat)
  deriving DecidableEq, Repr

/-- An attribute of the definition. (syntax) -/
inductive Attr
  | repr (hs : List Hint)
  | doc
  | other
  deriving DecidableEq, Repr

/-- The type of a field: a function pointer type written out (with its
`extern` and whether it is variadic), or any other type. (syntax) -/
inductive FieldTy
  | bareFn (abi : Option (Option String)) (variadic : Bool)
  | other (t : Ty)

/-- The type meant. -/
def FieldTy.ty : FieldTy → Ty
  | .bareFn _ _ => .fnPtr
  | .other t => t

/-- (syntax) -/
structure Field where
  name : Option String
  isPub : Bool
  ty : FieldTy

/-- (syntax) -/
structure Variant where
  name : String
  /-- `Fields::Unit`? -/
  fieldless : Bool
  disc : Option Int

/-- (syntax) -/
inductive Shape
  | named | tuple | unit
  deriving DecidableEq, Repr

/-- (syntax) -/
inductive Data
  | struct (sh : Shape) (fs : List Field)
  | enum (vs : List Variant)
  | union

/-- `syn::DeriveInput`. (syntax) -/
structure Item where
  attrs : List Attr
  isPub : Bool
  name : String
  lifetimes : Nat
  /-- type and const parameters -/
  params : Nat
  whereClause : Bool
  data : Data

/-- An argument of the attribute itself: `#[derive_ReprC(rename = "…", js)]`. (syntax) -/
inductive Arg
  | rename (s : String)
  | js
  | other

/-- Why expansion fails. -/
inductive Failure
  /-- `bail!` / `Error`: a compile error with this message -/
  | bail (msg : String)
  /-- the macro itself panics (a compile error as well) -/
  | panic
  /-- `ReprC!` has no rule for this -/
  | noRule
  deriving DecidableEq, Repr

/-- Crate feature `js`, and whether the macros were built with overflow checks. -/
structure Cfg where
  js : Bool
  overflowChecks : Bool

/-- /repo/src/proc_macro/derives/repr_c/args.rs l.10-17. -/
structure Args where
  rename : Option String := none
  js : Bool := false

/-- `Args::parse`, /repo/src/proc_macro/derives/repr_c/args.rs l.19-50. -/
def parseArgs (ret : Args) : List Arg → Except Failure Args
  | [] => .ok ret
  | .rename s :: as =>
    if ret.rename.isSome then .error (.bail "duplicate attribute")
    else parseArgs { ret with rename := some s } as
  | .js :: as =>
    if ret.js then .error (.bail "duplicate attribute")
    else parseArgs { ret with js := true } as
  | .other :: _ => .error (.bail "expected `rename` or `js`")

/-- What is generated beside the definition. -/
inductive Generated
  /-- `StructName_Layout` with these fields (/repo/src/proc_macro/derives/repr_c/struct_.rs l.84-131), and the
  field accesses `_it.#each_field_name` of `is_valid` (l.172-197) -/
  | struct (fields : List (String × Ty)) (accesses : List String)
  /-- `CLayout` is that of the field (/repo/src/proc_macro/derives/repr_c/struct_.rs l.331-349), or a
  `repr(transparent)` struct around it (l.258-328) -/
  | newtype (field : Ty) (renamed : Bool)
  /-- `CLayout` is the nullable function pointer (/repo/src/proc_macro/derives/handle_fptr.rs l.305-328);
  `access` is the field access in `deref` (l.140-145) -/
  | fnPtr (access : String)
  /-- `EnumName_Layout { discriminant }` (/repo/src/proc_macro/derives/repr_c/enum_.rs l.85-111); `none` for
  `os::raw::c_int` -/
  | enum (int : Option String)
  /-- `__opaque_StructName` (/repo/src/proc_macro/derives/repr_c/struct_.rs l.438-578) -/
  | opaque

/-- The first `#[repr]` attribute:
`attrs.iter().find(|attr| attr.path.is_ident("repr"))`. -/
def firstRepr : List Attr → Option (List Hint)
  | [] => none
  | .repr hs :: _ => some hs
  | _ :: as => firstRepr as

/-- `*attr = parse_quote!(#[repr(#(#idents),*)])` on that attribute,
/repo/src/proc_macro/derives/_mod.rs l.128-130. -/
def setFirstRepr (hs : List Hint) : List Attr → List Attr
  | [] => []
  | .repr _ :: as => .repr hs :: as
  | a :: as => a :: setFirstRepr hs as

/-- `parse_args_with(Punctuated::<Ident, Token![,]>::parse_terminated)`. -/
def words : List Hint → Option (List String)
  | [] => some []
  | .word s :: hs => (words hs).map (s :: ·)
  | .call _ _ :: _ => none

/-- The `find_map` with `attr.parse_args::<Ident>().ok()`: the first `#[repr]`
that consists of exactly one identifier.  /repo/src/proc_macro/derives/repr_c/struct_.rs l.23-28, /repo/src/proc_macro/derives/repr_c/enum_.rs l.16-21. -/
def soleWord : List Attr → Option String
  | [] => none
  | .repr [.word s] :: _ => some s
  | _ :: as => soleWord as

/-- `try_handle_fptr`, /repo/src/proc_macro/derives/handle_fptr.rs l.10-349.
`none` is the fallback to the rest of the macro. -/
def tryFptr (it : Item) : Option (Except Failure Generated) :=
  match it.data with
  | .struct .unit _ | .enum _ | .union => none                             -- l.23-44, 346
  | .struct sh fs =>
    match fs with
    | [f] =>                                                               -- l.45
      match firstRepr it.attrs with                                        -- l.49-55
      | none => some (.error (.bail "Missing `#[repr(…)]` annotation"))
      | some [.word "transparent"] =>
        if !it.isPub then some (.error (.bail "Missing `pub`"))            -- l.56-58
        else match f.ty with                                               -- l.60-68
          | .other _ => none
          | .bareFn abi variadic =>
            if !f.isPub then some (.error (.bail "Missing `pub`"))
            else if variadic then                                          -- l.69-71
              some (.error (.bail "`safer-ffi` does not support variadics"))
            else match abi with                                            -- l.73-92
              | none => some (.error (.bail "Missing `extern \"C\"`"))
              | some (some abi) =>
                if abi ≠ "C" then some (.error (.bail "Expected `\"C\"`"))
                else if it.lifetimes ≠ 0 && sh == .named then some (.error .panic)  -- l.263-270
                else some (.ok (.fnPtr "0"))
              | some none =>
                if it.lifetimes ≠ 0 && sh == .named then some (.error .panic)
                else some (.ok (.fnPtr "0"))
      | some _ => none
    | _ => none

/-- Field names of `StructName_Layout`, /repo/src/proc_macro/derives/repr_c/struct_.rs l.113-118: `_{i}` for the
fields of a tuple struct, counted in a `u8`. -/
def layoutName (i : Nat) (f : Field) : String :=
  f.name.getD s!"_{i % 256}"

/-- `each_field_name`, /repo/src/proc_macro/derives/repr_c/struct_.rs l.77-80: the name or the index. -/
def accessName (i : Nat) (f : Field) : String :=
  f.name.getD (toString i)

/-- The elements with their indices from `i` on: `(i..).zip(fields)`. -/
def mapIdx (g : Nat → Field → α) (i : Nat) : List Field → List α
  | [] => []
  | f :: fs => g i f :: mapIdx g (i + 1) fs

/-- `derive_transparent`, /repo/src/proc_macro/derives/repr_c/struct_.rs l.223-408. -/
def deriveTransparent (args : Args) (fs : List Field) : Except Failure Generated :=
  match fs with
  | [] => .error (.bail "`#[repr(transparent)]` requires at least one field")
  | f :: _ => .ok (.newtype f.ty.ty args.rename.isSome)

/-- `derive_opaque`, /repo/src/proc_macro/derives/repr_c/struct_.rs l.410-579: the attributes without
`#[repr(opaque)]` (l.422-427), and the opaque type. -/
def deriveOpaque (attrs : List Attr) : List Attr × Generated :=
  (attrs.filter (· != .repr [.word "opaque"]), .opaque)

/-- `struct_::derive`, /repo/src/proc_macro/derives/repr_c/struct_.rs l.13-221.  With overflow checks the `u8`
counter of l.113 panics when it has to count past 255. -/
def deriveStruct (cfg : Cfg) (args : Args) (attrs : List Attr) (fs : List Field) :
    Except Failure (List Attr × Generated) :=
  match soleWord attrs with
  | none => .error (.bail "missing explicit `#[repr(…)]` annotation")
  | some "transparent" => do return (attrs, ← deriveTransparent args fs)
  | some "opaque" => .ok (deriveOpaque attrs)
  | some "C" =>
    if fs.isEmpty then .error (.bail "C requires that structs have at least one field")
    else if cfg.overflowChecks && 256 ≤ fs.length then .error .panic
    else .ok (attrs, .struct (mapIdx (fun i f => (layoutName i f, f.ty.ty)) 0 fs)
      (mapIdx accessName 0 fs))
  | some _ => .error (.bail "unsupported `repr`")

/-- `Repr::try_from`, /repo/src/proc_macro/derives/repr_c/enum_.rs l.347-372: the names it knows. -/
def knownReprs : List String :=
  ["C", "u8", "u16", "u32", "u64", "u128", "i8", "i16", "i32", "i64", "i128"]

/-- `parse_discriminant_type`, /repo/src/proc_macro/derives/repr_c/enum_.rs l.279-345. -/
def parseDiscriminantType (attrs : List Attr) : Except Failure (Option String) :=
  match firstRepr attrs with
  | none => .error (.bail "missing `#[repr(…)]` annotation")
  | some hs =>
    match words hs with
    | none => .error (.bail "expected `,`")
    | some [] => .error (.bail "expected an integral `repr` specifier")
    | some ws =>
      if ws.any (!knownReprs.contains ·) then .error (.bail "unsupported `repr` annotation")
      else match ws.find? (· != "C") with
        | some int => .ok (some int)
        | none => .ok none                   -- with a warning, l.319-341

/-- `enum_::derive`, /repo/src/proc_macro/derives/repr_c/enum_.rs l.5-277. -/
def deriveEnum (it : Item) (vs : List Variant) : Except Failure (List Attr × Generated) :=
  if soleWord it.attrs = some "opaque" then .ok (deriveOpaque it.attrs)         -- l.15-32
  else if vs.any (!·.fieldless) then
    .error (.bail "Non field-less `enum`s are not supported yet.")              -- l.36-47
  else if it.lifetimes ≠ 0 || it.params ≠ 0 then
    .error (.bail "generic `enum`s are not supported yet.")                     -- l.49-53
  else if it.whereClause then .error (.bail "not supported")                    -- l.54-58
  else if vs.isEmpty then .error (.bail "C does not support empty enums!")      -- l.60-64
  else do return (it.attrs, .enum (← parseDiscriminantType it.attrs))

/-- `repr_c::derive`, /repo/src/proc_macro/derives/repr_c/_mod.rs l.18-63: the
definition as emitted, and what is generated. -/
def derive (cfg : Cfg) (args : List Arg) (it : Item) : Except Failure (Item × Generated) := do
  let args ← parseArgs {} args
  match tryFptr it with
  | some r => return (it, ← r)
  | none =>
    match it.data with
    | .struct _ fs =>
      let (attrs, g) ← deriveStruct cfg args it.attrs fs
      return ({ it with attrs }, g)
    | .enum vs =>
      let (attrs, g) ← deriveEnum it vs
      return ({ it with attrs }, g)
    | .union => .error (.bail "`union`s are not supported yet")

/-- Matching of the attributes in `ReprC!`, /repo/src/layout/macros.rs l.295-310:
docs, then `#[repr(X, js)]`, then anything.  The result has the attributes of
the definition handed to `derive_ReprC2` (l.323-334). -/
def legacyAttrs : List Attr → Option (List Attr)
  | .doc :: as => (legacyAttrs as).map (.doc :: ·)
  | .repr [.word x, .word "js"] :: as => some (.other :: .repr [.word x] :: as)
  | .repr [.word x] :: as => some (.other :: .repr [.word x] :: as)
  | _ => none

/-- `feed_to_macro_rules`, /repo/src/proc_macro/derives/_mod.rs l.18-78, with
`ReprC!`, /repo/src/layout/macros.rs l.291-346, which only has a rule for structs
with a body.  The arguments of the attribute are dropped; `js` is passed on. -/
def legacy (cfg : Cfg) (it : Item) : Except Failure (Item × Generated) :=
  match tryFptr it with
  | some r => do return (it, ← r)
  | none =>
    match it.data with
    | .enum _ => .error .noRule
    | .union => .error (.bail "`union`s are not supported yet.")
    | .struct .unit _ => .error .noRule
    | .struct _ _ =>
      match legacyAttrs it.attrs with
      | some attrs => derive cfg [.js] { it with attrs }
      | none => .error .noRule

/-- `swap_remove`. (std) -/
def swapRemove (ws : List String) (i : Nat) : List String :=
  match ws.getLast? with
  | some l => (ws.set i l).dropLast
  | none => []

/-- `derive_ReprC`, /repo/src/proc_macro/derives/_mod.rs l.80-135. -/
def deriveReprC (cfg : Cfg) (args : List Arg) (it : Item) : Except Failure (Item × Generated) :=
  match firstRepr it.attrs with
  | none => derive cfg args it
  | some hs =>
    match words hs with
    | none => .error .panic                                                -- `.unwrap()`, l.107
    | some ws =>
      match ws.findIdx? (· == "js") with                                   -- l.110-114
      | some i =>
        if cfg.js then do                                                  -- l.117-122
          let _ ← parseArgs {} args
          legacy cfg it
        else derive cfg args
          { it with attrs := setFirstRepr ((swapRemove ws i).map .word) it.attrs }
      | none => derive cfg args { it with attrs := setFirstRepr (ws.map .word) it.attrs }

/-- Types implementing `ConcreteReprC`: those with a C layout that is not
opaque, /repo/src/layout/_mod.rs l.915-933. Arrays always count as such, whatever their items
(/repo/src/layout/impls.rs l.102-103, l.208); the others are opaque if the type that gives their layout is
(/repo/src/layout/niche.rs l.21, /repo/src/option.rs l.25, /repo/src/proc_macro/derives/c_type/struct_.rs l.225). -/
def concrete : Ty → Bool
  | .opaque _ _ => false
  | .array _ _ => true
  | .option t | .tagged t => concrete t
  | .transparent (t :: _) => concrete t
  | _ => true

/-- The integer type of that name, if it implements `CType`
(/repo/src/layout/impls.rs l.21-83: not `u128` and `i128`). -/
def intTy? : String → Option IntTy
  | "u8" => some .u8 | "u16" => some .u16 | "u32" => some .u32 | "u64" => some .u64
  | "i8" => some .i8 | "i16" => some .i16 | "i32" => some .i32 | "i64" => some .i64
  | _ => none

/-- Does rustc accept the generated code: do the accessed fields exist, do the
field types meet the bounds (`ConcreteReprC`,
/repo/src/proc_macro/utils/trait_impl_shenanigans.rs l.30-63; /repo/src/proc_macro/derives/repr_c/struct_.rs l.157-164), does the integer implement `CType`. -/
def compiles (it : Item) : Generated → Bool
  | .struct fields accesses =>
    accesses.all (fun a => (fields.map (·.1)).contains a) && fields.all (concrete ·.2)
  | .newtype _ _ => true
  | .fnPtr access => match it.data with
    | .struct .tuple _ => access == "0"
    | _ => false
  | .enum (some k) => (intTy? k).isSome
  | .enum none => true
  | .opaque => true

/-- The generated `CLayout`; `none` for an opaque one, which has no C layout. -/
def Generated.clayout : Generated → Option CTy
  | .struct fields _ => some (.struct (clayouts (fields.map (·.2))))
  | .newtype t _ => some (Layout.clayout t)
  | .fnPtr _ => some .optFn
  | .enum (some k) => (intTy? k).map .enum
  | .enum none => some (.enum .i32)
  | .opaque => none

/-- The macro, and then rustc, accept the definition `it`; it becomes `it'`
and gets the C layout `g`. -/
def Accepts (cfg : Cfg) (args : List Arg) (it it' : Item) (g : Generated) : Prop :=
  deriveReprC cfg args it = .ok (it', g) ∧ compiles it' g = true

end Verif.Derive
