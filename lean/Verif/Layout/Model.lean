import Verif.Layout.Rust
/-
Model of the validity checks of safer_ffi: `ReprC::CLayout`, `ReprC::is_valid`,
`HasNiche::is_niche`, `from_raw`, `from_raw_unchecked`, `into_raw`, and of
`TaggedOption`.

A value is its byte image.  A panic is an explicit error.
-/
namespace Verif.Layout

/-- Why `is_valid` or a conversion can panic. -/
inductive Panic
  /-- "It is a logic error to try and get a ZST from C"
  (/repo/src/layout/impls.rs l.729, l.743) -/
  | zst
  /-- "wondering about the validity of an opaque type makes no sense"
  (/repo/src/layout/impls.rs l.1137-1140) -/
  | opaque
  /-- "size mismatch. This is a soundness bug"
  (/repo/src/utils/_mod.rs l.18-22) -/
  | sizeMismatch
  /-- "not a valid bit-pattern for the type"
  (/repo/src/layout/_mod.rs l.856-860) -/
  | notValid
  /-- reached `unreachable_unchecked()`: undefined behaviour
  (/repo/src/layout/_mod.rs l.862) -/
  | ub
  deriving DecidableEq, Repr

/-- Why `emit_struct` can panic (/repo/src/headers/languages/c.rs l.140-142, l.152-154). -/
inductive EmitPanic
  /-- "C does not support zero-sized structs!" -/
  | zeroSized
  /-- "Zero-sized fields must have an alignment of `1`" -/
  | zstAlign
  deriving DecidableEq, Repr

/-- The C types: what `ReprC::CLayout` can be. The impls of `CType`: /repo/src/layout/impls.rs l.94-103
(arrays), l.264-276
(functions), l.476-480 (integers), l.538-542 (floats), l.589-592, l.657-660 (pointers); the others are cited below. -/
inductive CTy
  | int (k : IntTy)
  | float (k : FloatTy)
  /-- `Bool(u8)`, /repo/src/layout/impls.rs l.787-791 -/
  | bool
  /-- `EnumName_Layout { discriminant }`, /repo/src/proc_macro/derives/repr_c/enum_.rs l.81-94 -/
  | enum (k : IntTy)
  | ptr
  /-- `Option<unsafe extern "C" fn>` -/
  | optFn
  | array (t : CTy) (n : Nat)
  /-- `StructName_Layout`, /repo/src/proc_macro/derives/repr_c/struct_.rs l.84-131 -/
  | struct (fields : List CTy)
  /-- `CVoid`, /repo/src/tuple.rs l.9-18 -/
  | void
  /-- `OpaqueLayout<T>`, a zero-sized marker, /repo/src/layout/impls.rs l.1023-1035 -/
  | opaque

mutual
/-- (size, align) of a C type; language rule, as `lay`. -/
def clay (tg : Target) : CTy → Nat × Nat
  | .int k => (k.size tg, tg.intAlign k)
  | .float k => (k.size, tg.floatAlign k)
  | .bool => (1, 1)
  | .enum k => (k.size tg, tg.intAlign k)
  | .ptr | .optFn => (tg.ptrSize, tg.ptrAlign)
  | .array t n => (n * (clay tg t).1, (clay tg t).2)
  | .struct fs => structLay (clays tg fs)
  | .void => (0, 1)
  | .opaque => (0, 1)

/-- The (size, align) of each. -/
def clays (tg : Target) : List CTy → List (Nat × Nat)
  | [] => []
  | t :: ts => clay tg t :: clays tg ts
end

mutual
/-- `<T as ReprC>::CLayout`.
 - integers, floats: `Self` (`from_CType_impl_ReprC!`, /repo/src/layout/_mod.rs l.828-847);
 - `bool`: `Bool` (/repo/src/layout/impls.rs l.965); enums: `EnumName_Layout` (/repo/src/proc_macro/derives/repr_c/enum_.rs l.236);
 - pointers: /repo/src/layout/impls.rs l.640, l.700, l.969-1010; `Out`: /repo/src/layout/impls.rs l.1015-1021;
 - fn pointers: /repo/src/layout/impls.rs l.388-391; arrays: /repo/src/layout/impls.rs l.216;
 - structs: /repo/src/proc_macro/derives/repr_c/struct_.rs l.165; `repr(transparent)`: the layout of the *first*
   field, /repo/src/proc_macro/derives/repr_c/struct_.rs l.237-243, l.331;
 - `Option<T>`: /repo/src/layout/niche.rs l.21; `TaggedOption<T>`: /repo/src/option.rs l.29-30;
 - `()`, `PhantomData`: /repo/src/layout/impls.rs l.724, l.738; opaque types: /repo/src/layout/impls.rs l.1131, l.1189.
Simplification: a renamed `repr(transparent)` struct wraps that same layout in
a one-field struct (/repo/src/proc_macro/derives/repr_c/struct_.rs l.256-322); the image is the same. -/
def clayout : Ty → CTy
  | .int k => .int k
  | .float k => .float k
  | .bool => .bool
  | .enum k _ => .enum k
  | .rawPtr | .ref _ _ | .out _ => .ptr
  | .fnPtr => .optFn
  | .array t n => .array (clayout t) n
  | .struct _ fs => .struct (clayouts fs)
  | .transparent fs => match fs with
    | [] => .void
    | f :: _ => clayout f
  | .option t => clayout t
  | .tagged t => .struct [.bool, clayout t]
  | .unit => .void
  | .opaque _ _ => .opaque

/-- The `CLayout` of each field, /repo/src/proc_macro/derives/repr_c/struct_.rs l.84-131. -/
def clayouts : List Ty → List CTy
  | [] => []
  | t :: ts => clayout t :: clayouts ts
end

/-- The integer stored in a discriminant field: two's complement. (language) -/
def decodeInt (tg : Target) (k : IntTy) (bs : List UInt8) : Int :=
  if k.signed ∧ 2 ^ (8 * k.size tg) ≤ 2 * natOf tg bs then
    (natOf tg bs : Int) - 2 ^ (8 * k.size tg)
  else natOf tg bs

/-- The constants `EnumName::Variant as Int` of the generated `is_valid`
(/repo/src/proc_macro/derives/repr_c/enum_.rs l.243-245). -/
def discsFrom (next : Int) : List (Option Int) → List Int
  | [] => []
  | none :: vs => next :: discsFrom (next + 1) vs
  | some d :: vs => d :: discsFrom (d + 1) vs

/-- `iter().all(Item::is_valid)` over the `n` items of size `sz` starting at
item `i` (/repo/src/layout/impls.rs l.222). -/
def allItems (f : List UInt8 → Except Panic Bool) (sz : Nat) (bs : List UInt8) :
    Nat → Nat → Except Panic Bool
  | _, 0 => .ok true
  | i, n + 1 => do
    if ← f (slice bs (i * sz) sz) then allItems f sz bs (i + 1) n else return false

/-- `is_valid` of a function pointer: `c_layout.is_some()`, /repo/src/layout/impls.rs l.394-399. -/
def fnPtrValid (tg : Target) (bs : List UInt8) : Except Panic Bool :=
  .ok (natOf tg bs != 0)

mutual
/-- `<T as ReprC>::is_valid`, on the image of a `CLayout`.
 - integers, floats: always true (layout/_mod.rs l.838-845);
 - `bool`: /repo/src/layout/impls.rs l.965-967; enum: /repo/src/proc_macro/derives/repr_c/enum_.rs l.239-248;
 - raw pointers: /repo/src/layout/impls.rs l.643-648, l.703-708; non-null pointers and
   references: /repo/src/layout/impls.rs l.969-1010; `Out`: /repo/src/layout/impls.rs l.1015-1021;
 - fn pointers: /repo/src/layout/impls.rs l.394-399; arrays: /repo/src/layout/impls.rs l.218-223;
 - structs: /repo/src/proc_macro/derives/repr_c/struct_.rs l.168-199 (every non-zero-sized field is checked, even
   after a failure); transparent: /repo/src/proc_macro/derives/repr_c/struct_.rs l.333-338;
 - `Option`: /repo/src/layout/niche.rs l.24-28; `TaggedOption`: /repo/src/option.rs l.31-41;
 - `()`, `PhantomData`: /repo/src/layout/impls.rs l.726-746; opaque: /repo/src/layout/impls.rs l.1132-1141.
Simplification: log output is left out. -/
def isValid (tg : Target) : Ty → List UInt8 → Except Panic Bool
  | .int _, _ => .ok true
  | .float _, _ => .ok true
  | .bool, bs => .ok (natOf tg bs &&& 0xfe == 0)
  | .enum k vs, bs => .ok (decodeInt tg k bs ∈ discsFrom 0 vs)
  | .rawPtr, _ => .ok true
  | .ref _ t, bs => .ok (natOf tg bs != 0 && natOf tg bs % alignOf' tg t == 0)
  | .out t, bs => .ok (natOf tg bs % alignOf' tg t == 0)
  | .fnPtr, bs => fnPtrValid tg bs
  | .array t n, bs => allItems (isValid tg t) (clay tg (clayout t)).1 bs 0 n
  | .struct _ fs, bs => fieldsValid tg fs (offsetsFrom 0 (clays tg (clayouts fs))) bs
  | .transparent fs, bs => match fs with
    | [] => .ok true
    | f :: _ => isValid tg f bs
  | .option t, bs => do
    if ← isNiche tg t bs then return true else isValid tg t bs
  | .tagged t, bs =>
    match natOf tg (slice bs 0 1) with
    | 0 => .ok true
    | 1 => isValid tg t (slice bs (alignOf' tg t) (clay tg (clayout t)).1)
    | _ => .ok false
  | .unit, _ => .error .zst
  | .opaque _ _, _ => .error .opaque

/-- The loop over the fields of a struct, /repo/src/proc_macro/derives/repr_c/struct_.rs l.172-197. -/
def fieldsValid (tg : Target) : List Ty → List Nat → List UInt8 → Except Panic Bool
  | [], _, _ => .ok true
  | _ :: _, [], _ => .ok true
  | f :: fs, o :: os, bs => do
    let a ← if sizeOf' tg f != 0 then
        isValid tg f (slice bs o (clay tg (clayout f)).1) else pure true
    let b ← fieldsValid tg fs os bs
    return a && b

/-- `<T as HasNiche>::is_niche`.
 - pointers, references, `Out`: null (/repo/src/layout/niche.rs l.53-65, l.101-104);
 - slices and `Vec`: null `ptr` field (/repo/src/layout/niche.rs l.67-72, l.89-92);
 - fn pointers: the default, `!is_valid` (/repo/src/layout/niche.rs l.8-14, /repo/src/layout/impls.rs l.245-262);
 - `repr(transparent)`: that of the first field (/repo/src/proc_macro/derives/repr_c/struct_.rs l.363-386).
Types without an impl cannot occur under `Option`; they give `false`. -/
def isNiche (tg : Target) : Ty → List UInt8 → Except Panic Bool
  | .ref _ _, bs => .ok (natOf tg bs == 0)
  | .out _, bs => .ok (natOf tg bs == 0)
  | .fnPtr, bs => (fnPtrValid tg bs).map (!·)
  | .struct true fs, bs =>
    match offsetsFrom 0 (clays tg (clayouts fs)) with
    | o :: _ => .ok (natOf tg (slice bs o tg.ptrSize) == 0)
    | [] => .ok false
  | .transparent fs, bs => match fs with
    | [] => .ok false
    | f :: _ => isNiche tg f bs
  | _, _ => .ok false
end

/-- `from_raw`, /repo/src/layout/_mod.rs l.867-883, with the size assertion of
`transmute_unchecked`, /repo/src/utils/_mod.rs l.12-29.  (Its `needs_drop`
assertion cannot fail: the argument is `Copy`.) -/
def fromRaw (tg : Target) (t : Ty) (bs : List UInt8) : Except Panic (Option (List UInt8)) := do
  if ← isValid tg t bs then
    if (clay tg (clayout t)).1 = sizeOf' tg t then return some bs
    else throw .sizeMismatch
  else return none

/-- `from_raw_unchecked`, /repo/src/layout/_mod.rs l.848-865. -/
def fromRawUnchecked (tg : Target) (debug : Bool) (t : Ty) (bs : List UInt8) :
    Except Panic (List UInt8) := do
  match ← fromRaw tg t bs with
  | some it => return it
  | none => throw (if debug then .notValid else .ub)

/-- `into_raw`, /repo/src/layout/_mod.rs l.887-898. -/
def intoRaw (tg : Target) (t : Ty) (bs : List UInt8) : Except Panic (List UInt8) :=
  if sizeOf' tg t = (clay tg (clayout t)).1 then .ok bs else .error .sizeMismatch

/-! ### Struct emission -/

/-- The loop of `emit_struct`: which fields of the declaration become members
of the C struct.  `ms` gives (size, align) of the fields from index `i` on.
/repo/src/headers/languages/c.rs l.148-164; the loops of /repo/src/headers/languages/csharp.rs l.131-152
and /repo/src/headers/languages/python.rs l.77-93 are the same.  The text of the members is modelled in
`Verif.Headers`. -/
def emitMembers (i : Nat) : List (Nat × Nat) → Except EmitPanic (List Nat)
  | [] => .ok []
  | (s, a) :: ms =>
    if s = 0 then
      if a > 1 then .error .zstAlign else emitMembers (i + 1) ms
    else do
      let rest ← emitMembers (i + 1) ms
      return i :: rest

/-- `emit_struct`: the indices of the fields that become members.
/repo/src/headers/languages/c.rs l.127-171. -/
def emitStruct (ms : List (Nat × Nat)) : Except EmitPanic (List Nat) :=
  if (structLay ms).1 = 0 then .error .zeroSized else emitMembers 0 ms

/-! ### `TaggedOption`, /repo/src/option.rs -/

/-- /repo/src/option.rs l.18-25 -/
inductive TaggedOption (α : Type) where
  | none
  | some (a : α)

namespace TaggedOption
variable {α β : Type} {m : Type → Type} [Monad m]

/-- `From<Option<T>>`, /repo/src/option.rs l.44-51 -/
def ofOption : Option α → TaggedOption α
  | .some v => .some v
  | .none => .none

/-- `From<TaggedOption<T>> for Option<T>`, /repo/src/option.rs l.53-60, and `into_rust`, /repo/src/option.rs l.108-110 -/
def toOption : TaggedOption α → Option α
  | .some v => .some v
  | .none => .none

/-- `From<T>`, /repo/src/option.rs l.62-66 -/
def ofValue (a : α) : TaggedOption α := .some a

/-- `as_ref`, /repo/src/option.rs l.70-75 -/
def asRef : TaggedOption α → Option α
  | .none => .none
  | .some v => .some v

/-- `as_mut`, /repo/src/option.rs l.77-82: the borrowed content and what the option becomes when
the borrower writes `v'` through it. -/
def asMut : TaggedOption α → Option (α × (α → TaggedOption α))
  | .none => .none
  | .some v => .some (v, .some)

/-- `map_or_else`, /repo/src/option.rs l.84-89.  The closures may have any effect. -/
def mapOrElse (self : TaggedOption α) (default : Unit → m β) (f : α → m β) : m β :=
  match self with
  | .none => default ()
  | .some v => f v

/-- `unwrap_or_else`, /repo/src/option.rs l.91-96 -/
def unwrapOrElse (self : TaggedOption α) (default : Unit → m α) : m α :=
  match self with
  | .none => default ()
  | .some v => pure v

/-- `and_then`, /repo/src/option.rs l.98-100 -/
def andThen (self : TaggedOption α) (f : α → m (TaggedOption β)) : m (TaggedOption β) :=
  self.mapOrElse (fun _ => pure .none) f

/-- `take`, /repo/src/option.rs l.103-105: the new `self` and the result. -/
def take (self : TaggedOption α) : TaggedOption α × TaggedOption α :=
  (.none, self)

end TaggedOption
end Verif.Layout
