import Verif.Print.Std
import Verif.Owned.Spec

/-!
# What printing should do

The value printed is given by its contents only: no memory, pointers or representations here.
-/
namespace Verif.Print

/-- The value of a lower-case hexadecimal digit. -/
def hexVal (c : Char) : Nat := if c.toNat < 58 then c.toNat - 48 else c.toNat - 87

/-- The first character of the inside of a Rust string literal, and the rest. -/
def unescape : Text → Option (Char × Text)
  | '\\' :: '0' :: r => some ('\x00', r)
  | '\\' :: 't' :: r => some ('\t', r)
  | '\\' :: 'r' :: r => some ('\r', r)
  | '\\' :: 'n' :: r => some ('\n', r)
  | '\\' :: '"' :: r => some ('"', r)
  | '\\' :: '\\' :: r => some ('\\', r)
  | '\\' :: 'u' :: '{' :: r =>
    some (Char.ofNat ((r.takeWhile (· ≠ '}')).foldl (fun n c => 16 * n + hexVal c) 0), (r.dropWhile (· ≠ '}')).drop 1)
  | '\\' :: _ => none
  | '"' :: _ => none
  | c :: r => some (c, r)
  | [] => none

/-- The text denoted by the rest of a Rust string literal, after its opening quote. -/
def literalRest : Nat → Text → Option Text
  | 0, _ => none
  | n + 1, t =>
    if t = ['"'] then some []
    else match unescape t with
      | none => none
      | some (c, r) => (literalRest n r).map (c :: ·)

/-- The text denoted by a Rust string literal. -/
def literal : Text → Option Text
  | '"' :: r => literalRest r.length r
  | _ => none

/-- What Rust prints with `{:?}` for the container of the standard library of each kind: vectors and boxed
slices as a list, strings as a literal, boxes as what is inside. -/
def rustDebug {α : Type} (P : Prims) (f : Fmt α) (text : List α → Text) (o : Opts) (c : List α) : Owned.Kind → Text
  | .rvec | .cvec | .rbs | .cbs => sliceDebug f o c
  | .rstr | .cstr | .rbstr | .cbstr => strDebug P o (text c)
  | .rb | .cb => c.flatMap (f o)

/-- Debug output of `Option` (std). -/
def optionDebug {α : Type} (f : Fmt α) (o : Opts) : Option α → Text
  | none => "None".toList
  | some x => debugTuple o "Some" [f o x]

end Verif.Print
