import Verif.Js.Conv
/-!
# Specification vocabulary for the JavaScript properties
-/
namespace Verif.Js
open Text Headers

/-- The number is the integer `v`: `m * 2 ^ e = v`. -/
def IsInt : Num → Int → Prop
  | .fin m e, v => m * 2 ^ e.toNat = v * 2 ^ (-e).toNat
  | _, _ => False

instance (x : Num) (v : Int) : Decidable (IsInt x v) := by
  cases x <;> simp only [IsInt] <;> infer_instance

/-- `t` is the integer part of a number: the number without its fraction. -/
def IntPart : Num → Int → Prop
  | .fin m e, t => 0 ≤ m ∧ t * 2 ^ (-e).toNat ≤ m * 2 ^ e.toNat ∧ m * 2 ^ e.toNat < (t + 1) * 2 ^ (-e).toNat ∨
      m < 0 ∧ m * 2 ^ e.toNat ≤ t * 2 ^ (-e).toNat ∧ (t - 1) * 2 ^ (-e).toNat < m * 2 ^ e.toNat
  | _, _ => False

/-- `v` is a value of the integer type `k`. -/
def InRange (E : Env) (k : IntTy) (v : Int) : Prop :=
  match k with
  | .u8 => 0 ≤ v ∧ v < 2 ^ 8
  | .u16 => 0 ≤ v ∧ v < 2 ^ 16
  | .u32 => 0 ≤ v ∧ v < 2 ^ 32
  | .u64 => 0 ≤ v ∧ v < 2 ^ 64
  | .i8 => -2 ^ 7 ≤ v ∧ v < 2 ^ 7
  | .i16 => -2 ^ 15 ≤ v ∧ v < 2 ^ 15
  | .i32 => -2 ^ 31 ≤ v ∧ v < 2 ^ 31
  | .i64 => -2 ^ 63 ≤ v ∧ v < 2 ^ 63
  | .usize => if E.ptrBits = 64 then 0 ≤ v ∧ v < 2 ^ 64 else 0 ≤ v ∧ v < 2 ^ 32
  | .isize => if E.ptrBits = 64 then -2 ^ 63 ≤ v ∧ v < 2 ^ 63 else -2 ^ 31 ≤ v ∧ v < 2 ^ 31

instance (E : Env) (k : IntTy) (v : Int) : Decidable (InRange E k v) := by
  cases k <;> simp only [InRange] <;> infer_instance

/-- The JavaScript value is the integer `v`: a number, or a BigInt. -/
def Denotes : Js → Int → Prop
  | .num x, v => IsInt x v
  | .bigint n, v => n = v
  | _, _ => False

instance (j : Js) (v : Int) : Decidable (Denotes j v) := by
  cases j <;> simp only [Denotes] <;> infer_instance

/-- Integers that JavaScript numbers represent exactly and unambiguously (`Number.isSafeInteger`). -/
def Safe (v : Int) : Prop := -(2 ^ 53 - 1) ≤ v ∧ v ≤ 2 ^ 53 - 1

instance (v : Int) : Decidable (Safe v) := inferInstanceAs (Decidable (_ ∧ _))

/-- The conversion is rejected with an error. -/
def Rejected {α : Type} (r : Res α) : Prop := ∃ e, r = .err e

/-! ### Floats -/

/-- The single-precision numbers: NaN, the infinities, and `m * 2 ^ e` with 24 bits of mantissa. -/
def IsF32 : Num → Prop
  | .fin m e => ∃ m' e' : Int, (Num.fin m e).eq (.fin m' e') = true ∧ -2 ^ 24 < m' ∧ m' < 2 ^ 24 ∧ -149 ≤ e' ∧ e' ≤ 104
  | _ => True

/-- What is used of `as f32 as f64`: its values are single-precision numbers, and it does not change
those. -/
def Narrowing (narrow : Num → Num) : Prop :=
  (∀ x, IsF32 (narrow x)) ∧ ∀ x, IsF32 x → narrow x = x

/-! ### Pointee types -/

mutual
/-- The C name of the type mentions a mutable pointer. (Names of structs, enums, aliases and arrays are
words: what is inside does not show.) -/
def showsMut : CTy → Bool
  | .mutPtr _ => true
  | .constPtr to => showsMut to
  | .fptr ret args => showsMut ret || showsMuts args
  | _ => false
def showsMuts : List CTy → Bool
  | [] => false
  | x :: xs => showsMut x || showsMuts xs
end

mutual
/-- The type with `const` added to all pointers that its C name mentions. -/
def allConst : CTy → CTy
  | .mutPtr to => .constPtr (allConst to)
  | .constPtr to => .constPtr (allConst to)
  | .fptr ret args => .fptr (allConst ret) (allConsts args)
  | ty => ty
def allConsts : List CTy → List CTy
  | [] => []
  | x :: xs => allConst x :: allConsts xs
end

mutual
/-- The names that appear in the type are words, without spaces and stars. -/
def wordy (b : Nat → Text) : CTy → Prop
  | .array _ item => ' ' ∉ short b item ∧ '*' ∉ short b item
  | .fptr ret args => wordy b ret ∧ wordys b args
  | .constPtr to => wordy b to
  | .mutPtr to => wordy b to
  | .alias rename _ _ => ' ' ∉ rename ∧ '*' ∉ rename
  | .adt i generics => ' ' ∉ short b (.adt i generics) ∧ '*' ∉ short b (.adt i generics)
  | _ => True
def wordys (b : Nat → Text) : List CTy → Prop
  | [] => True
  | x :: xs => wordy b x ∧ wordys b xs
end

/-! ### Values -/

mutual
/-- Pointers whose JavaScript form can be read back: no `const` pointer to a type that mentions a mutable
pointer. -/
def readable (b : Nat → Text) : JTy → Prop
  | .ptr const to => wordy b to ∧ (const = true → showsMut to = false)
  | .struct _ names fields => names.Nodup ∧ names.length = fields.length ∧ readables b fields
  | .enum variants => (variants.map (·.1)).Nodup ∧ (variants.map (·.2)).Nodup
  | _ => True
def readables (b : Nat → Text) : List JTy → Prop
  | [] => True
  | x :: xs => readable b x ∧ readables b xs
end

mutual
/-- The values of each type; no NaN. -/
def Has (E : Env) : JTy → Val → Prop
  | .int k, .int v => InRange E k v
  | .f32, .float x => x ≠ .nan ∧ IsF32 x
  | .f64, .float x => x ≠ .nan
  | .bool, .bool _ => True
  | .void, .void => True
  | .ptr _ _, .ptr (.addr a) => InRange E .usize a
  | .bytes n, .bytes bs => bs.length = n
  | .enum variants, .disc d => d ∈ variants.map (·.2)
  | .struct _ _ fields, .struct vs => HasAll E fields vs
  | _, _ => False
def HasAll (E : Env) : List JTy → List Val → Prop
  | [], [] => True
  | ty :: tys, v :: vs => Has E ty v ∧ HasAll E tys vs
  | _, _ => False
end

end Verif.Js
