/-!
# What `core::fmt` does

A model of the parts of Rust's standard library that the `Debug` and `Display` implementations of
/repo/src rely on.  None of it is in /repo.

Simplifications, for all of this file: a formatter writes to a text in memory, which does not fail;
`{:x?}` and the sign flags are left out.
-/
namespace Verif.Print

abbrev Text := List Char

/-- Where padding goes: `{:<5}`, `{:>5}`, `{:^5}` (std). -/
inductive Align
  | left | right | center
deriving DecidableEq, Repr

/-- The options of a formatter: `{:#?}`, `{:5}`, `{:.5}`, `{:*<5}` (std). -/
structure Opts where
  alternate : Bool := false
  width : Option Nat := none
  prec : Option Nat := none
  fill : Char := ' '
  align : Align := .left
deriving DecidableEq, Repr

/-- `Debug::fmt` or `Display::fmt` of a type (std). -/
abbrev Fmt (α : Type) := Opts → α → Text

/-- How primitive values are printed: pointers and numbers with `{:?}`, and which characters are
printable and no combining marks (the tables of core's `unicode` module).  The theorems hold for any. -/
structure Prims where
  ptr : Fmt Nat
  num : Fmt Nat
  plain : Char → Bool

/-- `Formatter::pad` (std): at most `prec` characters, then filled up to `width`. -/
def pad (o : Opts) (s : Text) : Text :=
  let t := match o.prec with | none => s | some n => s.take n
  match o.width with
  | none => t
  | some w =>
    let k := w - t.length
    match o.align with
    | .left => t ++ List.replicate k o.fill
    | .right => List.replicate k o.fill ++ t
    | .center => List.replicate (k / 2) o.fill ++ t ++ List.replicate (k - k / 2) o.fill

/-- `<str as Display>::fmt` (std). -/
def strDisplay (o : Opts) (s : Text) : Text := pad o s

/-- The lower-case hexadecimal digit of a number below 16 (std). -/
def digit (n : Nat) : Char := if n < 10 then Char.ofNat (48 + n) else Char.ofNat (87 + n)

/-- The hexadecimal digits of a number, last one first (std). -/
def hexRev (n : Nat) : Text := if n < 16 then [digit n] else digit (n % 16) :: hexRev (n / 16)
termination_by n

/-- `char::escape_debug` within a string: `'` is left alone (std). -/
def esc (P : Prims) (c : Char) : Text :=
  if c = '\x00' then ['\\', '0']
  else if c = '\t' then ['\\', 't']
  else if c = '\r' then ['\\', 'r']
  else if c = '\n' then ['\\', 'n']
  else if c = '"' then ['\\', '"']
  else if c = '\\' then ['\\', '\\']
  else if P.plain c then [c]
  else ['\\', 'u', '{'] ++ (hexRev c.toNat).reverse ++ ['}']

/-- `<str as Debug>::fmt` (std): no option has any effect. -/
def strDebug (P : Prims) (_ : Opts) (s : Text) : Text := '"' :: (s.flatMap (esc P) ++ ['"'])

/-- `<bool as Debug>::fmt` (std). -/
def boolDebug (o : Opts) (b : Bool) : Text := pad o (if b then "true" else "false").toList

/-- `PadAdapter` (std): four spaces at the start of each line. -/
def indentAux (atStart : Bool) : Text → Text
  | [] => []
  | c :: r => (if atStart then [' ', ' ', ' ', ' '] else []) ++ c :: indentAux (c == '\n') r

/-- See `indentAux`. -/
def indent (t : Text) : Text := indentAux true t

/-- Items with `, ` between them (std). -/
def commas : List Text → Text
  | [] => []
  | [x] => x
  | x :: y :: r => x ++ [',', ' '] ++ commas (y :: r)

/-- Items each on lines of its own, indented, with a comma at the end (std). -/
def lines (xs : List Text) : Text := xs.flatMap (fun x => indent (x ++ [',', '\n']))

/-- `Formatter::debug_list` (std), for the items already printed with the same options. -/
def debugList (o : Opts) (xs : List Text) : Text :=
  if xs.isEmpty then ['[', ']']
  else if o.alternate then ['[', '\n'] ++ lines xs ++ [']']
  else ['['] ++ commas xs ++ [']']

/-- `<[T] as Debug>::fmt` (std). -/
def sliceDebug {α : Type} (f : Fmt α) (o : Opts) (xs : List α) : Text := debugList o (xs.map (f o))

/-- `Formatter::debug_struct` (std). -/
def debugStruct (o : Opts) (name : String) (fields : List (String × Text)) : Text :=
  if fields.isEmpty then name.toList
  else
    let fs := fields.map (fun f => f.1.toList ++ [':', ' '] ++ f.2)
    if o.alternate then name.toList ++ [' ', '{', '\n'] ++ lines fs ++ ['}']
    else name.toList ++ [' ', '{', ' '] ++ commas fs ++ [' ', '}']

/-- `Formatter::debug_tuple` (std). -/
def debugTuple (o : Opts) (name : String) (fields : List Text) : Text :=
  if fields.isEmpty then name.toList
  else if o.alternate then name.toList ++ ['(', '\n'] ++ lines fields ++ [')']
  else name.toList ++ ['('] ++ commas fields ++ [')']

end Verif.Print
