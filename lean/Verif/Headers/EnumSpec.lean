import Verif.Headers.DocsSpec
import Verif.Headers.Enums
/-!
# Specification: the constants of an enum

On the Rust side, the rule for discriminants of the Rust reference. On the side of the header, a reader
of enum definitions with the rule that C and C# share: a constant without a value is the previous one
plus one, the first one is zero. (cffi parses C.)
-/
namespace Verif.Headers
open Text

/-- The Rust reference, Enumerations: an explicit discriminant has the type of the `repr` (`isize` for
`repr(C)`); without one, it is one more than the previous one, zero for the first variant. None if
the enum does not compile. -/
def discriminants (W : Nat) (k : IntTy) : (next : Int) → List EnumVar → Option (List (Text × Int))
  | _, [] => some []
  | next, v :: vs =>
      match (match v.disc with
        | some e => e.eval W k
        | none => if k.has W next then some next else none) with
      | none => none
      | some x => (discriminants W k (x + 1) vs).map fun r => (v.name, x) :: r

/-! ### What expressions mean, on bits -/

/-- The least and the greatest value of the integer types: the Rust reference, Numeric types. `W`: the bits of a pointer. -/
def IntTy.range (W : Nat) : IntTy → Int × Int
  | .u8 => (0, 255)
  | .u16 => (0, 65535)
  | .u32 => (0, 4294967295)
  | .u64 => (0, 18446744073709551615)
  | .usize => (0, 2 ^ W - 1)
  | .i8 => (-128, 127)
  | .i16 => (-32768, 32767)
  | .i32 => (-2147483648, 2147483647)
  | .i64 => (-9223372036854775808, 9223372036854775807)
  | .isize => (-(2 ^ (W - 1)), 2 ^ (W - 1) - 1)

/-- The number that bits of a type stand for: unsigned, or in two's complement. -/
def IntTy.read (W : Nat) (k : IntTy) (x : BitVec (k.bits W)) : Int := if k.signed then x.toInt else x.toNat

/-- The Rust reference, Operator expressions, in constants: `!` inverts every bit; `+` and `*` have the mathematical result,
and overflow does not compile; `<<` shifts bits out, and does not compile if the type has not that many bits. All operands have
the type of the expression. -/
inductive Ex.Means (W : Nat) (k : IntTy) : Ex → BitVec (k.bits W) → Prop
  | lit {v x} : k.read W x = v → Means W k (.lit v) x
  | typed {v x} : k.read W x = v → Means W k (.typed v k) x
  | not {e x} : Means W k e x → Means W k (.not e) (~~~x)
  | add {a b x y z} : Means W k a x → Means W k b y → k.read W z = k.read W x + k.read W y → Means W k (.add a b) z
  | mul {a b x y z} : Means W k a x → Means W k b y → k.read W z = k.read W x * k.read W y → Means W k (.mul a b) z
  | shl {e x n} : Means W k e x → n < k.bits W → Means W k (.shl e n) (x <<< n)

/-- Decimal digits. -/
def readNat (s : Text) : Option Nat :=
  if s ≠ [] ∧ s.all Char.isDigit then some (s.foldl (fun n c => n * 10 + (c.toNat - 48)) 0) else none

def readInt : Text → Option Int
  | '-' :: s => (readNat s).map fun n => -(n : Int)
  | s => (readNat s).map fun n => (n : Int)

/-- `NAME` or `NAME = value` -/
def enumerator (s : Text) : Option (Text × Option Int) :=
  match splitOnce '=' s with
  | none => some (trim s, none)
  | some (n, v) => (readInt (trim v)).map fun x => (trim n, some x)

/-- The rule for constants without a value. -/
def assign : (next : Int) → List (Text × Option Int) → List (Text × Int)
  | _, [] => []
  | next, (n, v) :: r => (n, v.getD next) :: assign (v.getD next + 1) r

/-- The enumerators between the first `{` and the next `}`, comments removed, each ended by a comma. -/
def enumerators (text : Text) : Option (List (Text × Option Int)) :=
  match splitOnce '{' (code .code text) with
  | none => none
  | some (_, r) => match splitOnce '}' r with
    | none => none
    | some (body, _) =>
        if trim ((split ',' body).getLastD []) = [] then (split ',' body).dropLast.mapM enumerator else none

/-- The constants of the enum that the text defines, with their values. -/
def constants (text : Text) : Option (List (Text × Int)) := (enumerators text).map (assign 0)

/-- A C example, with a comment. -/
example : constants t!"typedef enum E { /* a, b */ A,\n B = -5,\n C, } E_t;" = some [(t!"A", 0), (t!"B", -5), (t!"C", -4)] := by
  decide

end Verif.Headers
