import Verif.Derive.Model
import Verif.Layout.Spec
/-
Specification for C75 and C76.

`rustLayout` is the layout rustc gives a definition.  It follows the Rust
Reference, "Type layout" and "Attributes: repr": the hints of *all* `#[repr]`
attributes of a definition count.  `Documented` is the list of supported
definitions of the guide (/repo/guide/src/derive-reprc/_.md l.51-74).
-/
namespace Verif.Derive

open Verif.Layout

/-- The hints of all `#[repr]` attributes. -/
def hints (it : Item) : List Hint :=
  it.attrs.flatMap fun
    | .repr hs => hs
    | _ => []

/-- Bounds on the alignment of the fields. -/
def packs (hs : List Hint) : List Nat :=
  hs.filterMap fun
    | .word "packed" => some 1
    | .call "packed" n => some n
    | _ => none

/-- Demands on the alignment of the whole. -/
def aligns (hs : List Hint) : List Nat :=
  hs.filterMap fun
    | .call "align" n => some n
    | _ => none

/-- A hint that may stand on a struct. -/
def structHint : Hint → Bool
  | .word s => ["C", "transparent", "packed"].contains s
  | .call s _ => ["packed", "align"].contains s

/-- Integer types an enum may have as its representation. -/
def intHint? : Hint → Option IntTy
  | .word "usize" => some .usize
  | .word "isize" => some .isize
  | .word "u8" => some .u8 | .word "u16" => some .u16
  | .word "u32" => some .u32 | .word "u64" => some .u64
  | .word "i8" => some .i8 | .word "i16" => some .i16
  | .word "i32" => some .i32 | .word "i64" => some .i64
  | _ => none

/-- The fixed-size integers of at most 64 bits. -/
def fixedInts : List String := ["u8", "u16", "u32", "u64", "i8", "i16", "i32", "i64"]

/-- The type is opaque, or holds an opaque type in the place of its layout. -/
inductive IsOpaque : Ty → Prop
  | here (l p) : IsOpaque (.opaque l p)
  | array {t} (n) : IsOpaque t → IsOpaque (.array t n)
  | option {t} : IsOpaque t → IsOpaque (.option t)
  | tagged {t} : IsOpaque t → IsOpaque (.tagged t)
  | transparent {t} (ts) : IsOpaque t → IsOpaque (.transparent (t :: ts))

/-- The type is an array of such types, or holds one in the place of its layout. -/
inductive IsOpaqueArray : Ty → Prop
  | here {t} (n) : IsOpaque t → IsOpaqueArray (.array t n)
  | option {t} : IsOpaqueArray t → IsOpaqueArray (.option t)
  | tagged {t} : IsOpaqueArray t → IsOpaqueArray (.tagged t)
  | transparent {t} (ts) : IsOpaqueArray t → IsOpaqueArray (.transparent (t :: ts))

/-- A field that is not zero-sized with alignment 1. -/
def nontrivial (tg : Target) (t : Ty) : Bool := lay tg t != (0, 1)

/-- The layout of a struct with fields of these (size, align) when the fields
are packed to `pack` and the whole is aligned to `align`:
size, alignment, offsets of the fields. -/
def cStruct (pack align : Option Nat) (fs : List (Nat × Nat)) : Nat × Nat × List Nat :=
  let fs := fs.map fun (s, a) => (s, match pack with | some p => min a p | none => a)
  let a := max (maxAlign fs) (align.getD 1)
  (roundUp (endFrom 0 fs) a, a, offsetsFrom 0 fs)

/-- The types of the fields. -/
def fieldTys (fs : List Field) : List Ty := fs.map (·.ty.ty)

/-- rustc's layout of a definition with these hints: size, alignment, offsets of the fields.
`none` when rustc rejects the definition or leaves its layout unspecified.  A
`repr(C)` enum is as large as C's `int` when that can hold its discriminants. -/
def layoutWith (tg : Target) (hs : List Hint) : Data → Option (Nat × Nat × List Nat)
  | .struct _ fs =>
    if !hs.all structHint then none
    else if hs = [.word "transparent"] then
      if ((fieldTys fs).filter (nontrivial tg)).length ≤ 1 then
        some (maxSize (lays tg (fieldTys fs)), maxAlign (lays tg (fieldTys fs)), fs.map fun _ => 0)
      else none
    else if hs.contains (.word "transparent") then none
    else if !(packs hs).isEmpty && !(aligns hs).isEmpty then none
    else if (packs hs).any (some · != (packs hs).head?) then none
    else if hs.contains (.word "C") then
      some (cStruct (packs hs).head? (aligns hs).max? (lays tg (fieldTys fs)))
    else none
  | .enum vs =>
    if vs.isEmpty || vs.any (!·.fieldless) then none
    else if !hs.all (fun h => h == .word "C" || (intHint? h).isSome) then none
    else match hs.filterMap intHint? with
      | [] =>
        if hs.contains (.word "C") && (discsFrom 0 (vs.map (·.disc))).all (InRange tg .i32 ·) then
          some (IntTy.i32.size tg, tg.intAlign .i32, [])
        else none
      | k :: ks =>
        if ks.all (· == k) && discsOk tg k 0 [] (vs.map (·.disc)) then
          some (k.size tg, tg.intAlign k, [])
        else none
  | .union => none

/-- rustc's layout of the definition. -/
def rustLayout (tg : Target) (it : Item) : Option (Nat × Nat × List Nat) :=
  layoutWith tg (hints it) it.data

/-- Size, alignment and member offsets of a C type. -/
def cLayout (tg : Target) : CTy → Nat × Nat × List Nat
  | .struct fs => ((clay tg (.struct fs)).1, (clay tg (.struct fs)).2, offsetsFrom 0 (clays tg fs))
  | t => ((clay tg t).1, (clay tg t).2, [])

/-- The C type `c` has the layout `L` of the Rust type; the single field of a
newtype is not a member of the C type, it *is* the C type. -/
def SameLayout (tg : Target) (c : CTy) (g : Generated) (L : Nat × Nat × List Nat) : Prop :=
  match g with
  | .struct _ _ => cLayout tg c = L
  | _ => ((clay tg c).1, (clay tg c).2) = (L.1, L.2.1)

/-- The definition has exactly one `#[repr]` attribute. -/
def OneRepr (it : Item) : Prop := ∃ pre hs post,
  it.attrs = pre ++ .repr hs :: post ∧ (∀ a ∈ pre ++ post, ∀ hs, a ≠ .repr hs)

/-- The definition has the attribute `#[repr(w)]` and no other `#[repr]`. -/
def SoleRepr (it : Item) (w : String) : Prop := ∃ pre post,
  it.attrs = pre ++ .repr [.word w] :: post ∧ (∀ a ∈ pre ++ post, ∀ hs, a ≠ .repr hs)

/-- Is it `js`? -/
def isJs : Arg → Bool
  | .js => true
  | _ => false

/-- Is it `rename = …`? -/
def isRename : Arg → Bool
  | .rename _ => true
  | _ => false

/-- The arguments of the attribute are `rename = …` and `js`, each at most once. -/
def GoodArgs (args : List Arg) : Prop :=
  (∀ a ∈ args, a = .js ∨ ∃ s, a = .rename s) ∧
  args.countP isJs ≤ 1 ∧ args.countP isRename ≤ 1

/-- The guide's list:
 - a `#[repr(C)]` struct with at least one field, all of them `ReprC` (and not
   opaque);
 - a `#[repr(transparent)]` wrapper around a `ReprC` type;
 - a field-less `#[repr({integer})]` enum;
 - any type with `#[repr(opaque)]`. -/
inductive Documented (it : Item) : Prop
  | repr_c {sh fs} (hd : it.data = .struct sh fs) (hr : .word "C" ∈ hints it) (hne : fs ≠ [])
      (hf : ∀ f ∈ fs, ¬ IsOpaque f.ty.ty)
  | transparent {sh fs} (hd : it.data = .struct sh fs) (hr : .word "transparent" ∈ hints it)
      (hne : fs ≠ [])
  | enum {vs k} (hd : it.data = .enum vs) (hne : vs ≠ []) (hv : ∀ v ∈ vs, v.fieldless = true)
      (hr : .word k ∈ hints it) (hk : k ∈ fixedInts)
  | hidden (hd : it.data ≠ .union) (hr : .word "opaque" ∈ hints it)

end Verif.Derive
