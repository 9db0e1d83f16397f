import Verif.Layout.Model
import Verif.Derive.Model
/-!
# Opaque types: model of the trait bounds

Which types implement `ReprC`, and which may stand in an exported signature. An opaque type (`String`, `Vec<T>`,
`Context<'_>`, `#[repr(opaque)]` types, …) implements `ReprC` too, with a zero-sized marker as its C layout
(/repo/src/layout/impls.rs lines 1023-1066, 1130-1198), so that pointers to it do.
-/
namespace Verif.Opaque

open Verif.Layout
open Verif.Derive (concrete)

/-- The lengths for which arrays have impls, /repo/src/layout/impls.rs lines 85-90. -/
def arrayLengths : List Nat :=
  [1, 2, 3, 4, 5, 6, 7, 8, 9, 10, 11, 12, 13, 14, 15, 16, 17, 18, 19, 20, 21, 22, 23, 24, 25, 26, 27, 28, 29, 30, 31, 32, 40, 48,
   50, 60, 64, 70, 75, 80, 90, 96, 100, 125, 128, 192, 200, 250, 256, 300, 400, 500, 512, 600, 700, 750, 800, 900, 1000, 1024]

/-- `T : HasNiche`: pointers, slices, vectors and `Out` (/repo/src/layout/niche.rs lines 53-104), functions
(/repo/src/layout/impls.rs lines 245-262), `repr(transparent)` structs around one
(/repo/src/proc_macro/derives/repr_c/struct_.rs lines 355-386). -/
def niche : Ty → Bool
  | .ref _ _ | .out _ | .fnPtr => true
  | .struct n _ => n
  | .transparent (f :: _) => niche f
  | _ => false

mutual
/-- `T : ReprC`. Pointers demand it of what they point to (/repo/src/layout/impls.rs lines 640-644, 969-1021), arrays of their
items (lines 211-216), `Option` also demands a niche (/repo/src/layout/niche.rs lines 17-19), `TaggedOption` a layout that is
not opaque (/repo/src/option.rs line 25), structs the same of all fields
(/repo/src/proc_macro/utils/trait_impl_shenanigans.rs lines 44-62), `repr(transparent)` structs `ReprC` of the first field
(/repo/src/proc_macro/derives/repr_c/struct_.rs lines 237-253). -/
def reprC : Ty → Bool
  | .int _ | .float _ | .bool | .enum _ _ | .rawPtr | .fnPtr | .unit | .opaque _ _ => true
  | .ref _ t | .out t => reprC t
  | .array t n => reprC t && arrayLengths.contains n
  | .struct _ fs => reprCs fs
  | .transparent fs => match fs with
    | [] => false
    | f :: _ => reprC f
  | .option t => reprC t && niche t
  | .tagged t => reprC t && concrete t

/-- The bounds on the fields of a struct, /repo/src/proc_macro/utils/trait_impl_shenanigans.rs lines 56-58. -/
def reprCs : List Ty → Bool
  | [] => true
  | f :: fs => reprC f && concrete f && reprCs fs
end

/-- `T : ConcreteReprC`, /repo/src/layout/_mod.rs lines 915-933: what `#[ffi_export]` demands of the types of parameters and
of a written return type (/repo/src/proc_macro/ffi_export/fn_/mod.rs lines 13-19, 101, 152). -/
def byValue (t : Ty) : Bool := reprC t && concrete t

/-- The types of a signature. -/
structure Sig where
  params : List Ty
  ret : Ty

/-- `#[ffi_export] fn`, /repo/src/proc_macro/ffi_export/fn_/mod.rs lines 101, 146-153. (The return type `()` is `.unit`.) -/
def exportOk (s : Sig) : Bool := s.params.all byValue && byValue s.ret

/-- `extern "C" fn(…) -> … : ReprC`, /repo/src/layout/impls.rs lines 388-394, 412-422; closures have the same bounds
(/repo/src/closure/boxed.rs lines 36-41, /repo/src/closure/arc.rs lines 105-108). -/
def callbackOk (s : Sig) : Bool := s.params.all reprC && reprC s.ret

end Verif.Opaque
