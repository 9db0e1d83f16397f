import Verif.Headers.Emit
/-!
# Enums: from the declaration to the emitter

Model of the part of `src/proc_macro/derives/repr_c/enum_.rs` that hands the variants of an enum to the
header language, and of the discriminants that Rust gives them.
-/
namespace Verif.Headers

/-- Bits of an integer type; `W` is the number of bits of a pointer. Language semantics, for the `repr` of
src/proc_macro/derives/repr_c/enum_.rs 319-337. -/
def IntTy.bits (W : Nat) : IntTy → Nat
  | .u8 | .i8 => 8
  | .u16 | .i16 => 16
  | .u32 | .i32 => 32
  | .u64 | .i64 => 64
  | .usize | .isize => W

/-- Whether the integer type is signed (language), see `IntTy.bits`. -/
def IntTy.signed : IntTy → Bool
  | .i8 | .i16 | .i32 | .i64 | .isize => true
  | _ => false

/-- Whether the type has the value (language), see `IntTy.bits`. -/
def IntTy.has (W : Nat) (k : IntTy) (v : Int) : Bool :=
  if k.signed then decide (-(2 ^ (k.bits W - 1) : Int) ≤ v ∧ v < 2 ^ (k.bits W - 1)) else decide (0 ≤ v ∧ v < 2 ^ k.bits W)

/-- The value modulo the size of the type. (language), see `IntTy.bits`. -/
def IntTy.wrap (W : Nat) (k : IntTy) (v : Int) : Int :=
  let r := v % 2 ^ k.bits W
  if k.signed && decide ((2 ^ (k.bits W - 1) : Int) ≤ r) then r - 2 ^ k.bits W else r

/-- Discriminant expressions. `lit` is a literal without suffix, with its sign; `typed` a literal with
a suffix, or a constant of this type.

Simplification: other operators, and parts with a type of their own (casts, function calls), are left
out. The `#disc` of src/proc_macro/derives/repr_c/enum_.rs 141-149. -/
inductive Ex
  | lit (v : Int)
  | typed (v : Int) (k : IntTy)
  | not (e : Ex)
  | add (a b : Ex)
  | mul (a b : Ex)
  | shl (e : Ex) (n : Nat)

/-- The value, if it does not overflow (language; src/proc_macro/derives/repr_c/enum_.rs 141-149 leaves
the evaluation to rustc). -/
def Ex.checked (W : Nat) (k : IntTy) (v : Int) : Option Int := if k.has W v then some v else none

/-- The value of an expression of type `k`; none if it does not compile (ill-typed, or overflow, which is
an error in constants). Language semantics, see `Ex`. -/
def Ex.eval (W : Nat) (k : IntTy) : Ex → Option Int
  | .lit v => checked W k v
  | .typed v k' => if k' = k then checked W k v else none
  | .not e => (e.eval W k).map fun x => if k.signed then -x - 1 else 2 ^ k.bits W - 1 - x
  | .add a b => match a.eval W k, b.eval W k with
    | some x, some y => checked W k (x + y)
    | _, _ => none
  | .mul a b => match a.eval W k, b.eval W k with
    | some x, some y => checked W k (x * y)
    | _, _ => none
  | .shl e n => match e.eval W k with
    | some x => if n < k.bits W then some (k.wrap W (x * 2 ^ n)) else none
    | none => none

/-- The type that a part of the expression imposes, if any. Language semantics, see `Ex`. -/
def Ex.type? : Ex → Option IntTy
  | .lit _ => none
  | .typed _ k => some k
  | .not e => e.type?
  | .add a b => a.type?.or b.type?
  | .mul a b => a.type?.or b.type?
  | .shl e _ => e.type?

/-- A variant of an enum declaration. The input of src/proc_macro/derives/repr_c/enum_.rs 138-159. -/
structure EnumVar where
  docs : List Text
  name : Text
  disc : Option Ex

/-- `{:?}` of an integer. (core) src/headers/languages/c.rs 104, /repo/src/headers/languages/csharp.rs 91. -/
def intText (v : Int) : Text := (toString v).toList

/-- src/proc_macro/derives/repr_c/enum_.rs 141-149: the discriminant handed to the header language is
`&(#disc, ).0 as _`, a `dyn Debug`: nothing says that it has the type of the enum's `repr`, so that
literals without suffix have Rust's default type `i32`. -/
def Ex.header (W : Nat) (e : Ex) : Option Int := e.eval W (e.type?.getD .i32)

/-- src/proc_macro/derives/repr_c/enum_.rs 138-159: `each_enum_variant`. None if it does not compile. -/
def EnumVar.variant (W : Nat) (v : EnumVar) : Option Variant :=
  match v.disc with
  | none => some ⟨v.docs, v.name, none⟩
  | some e => (e.header W).map fun x => ⟨v.docs, v.name, some (intText x)⟩

/-- src/proc_macro/derives/repr_c/enum_.rs 138-159: all variants. -/
def variants (W : Nat) (vs : List EnumVar) : Option (List Variant) := vs.mapM (·.variant W)

end Verif.Headers
