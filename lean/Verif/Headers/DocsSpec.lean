import Verif.Util.Text
/-!
# Specification of comments

What a compiler sees of a header: the text without its comments. Independent of the model.
-/
namespace Verif.Headers

/-- Where a lexer is. -/
inductive Lex | code | block | line
  deriving DecidableEq, Repr

/-- The line terminators of C#: `\n`, `\r`, U+0085, U+2028, U+2029. (C only knows the first two.) -/
def isTerminator (c : Char) : Bool :=
  c.toNat == 10 || c.toNat == 13 || c.toNat == 0x85 || c.toNat == 0x2028 || c.toNat == 0x2029

/-- The text without its comments: `/* … */` up to the first `*/`, and `// …` up to the end of the
line. Line splicing, string literals and character literals are not considered. -/
def code : Lex → Text → Text
  | .code, '/' :: '*' :: cs => code .block cs
  | .code, '/' :: '/' :: cs => code .line cs
  | .code, c :: cs => c :: code .code cs
  | .block, '*' :: '/' :: cs => code .code cs
  | .block, _ :: cs => code .block cs
  | .line, c :: cs => if isTerminator c then c :: code .code cs else code .line cs
  | _, [] => []

/-- `sub` occurs in `s`. -/
def Contains (s sub : Text) : Prop := ∃ a b, s = a ++ sub ++ b

/-! ### Backticks -/

/-- A maximal run of backticks, or another character. -/
inductive Seg | run (n : Nat) | ch (c : Char)
  deriving DecidableEq, Repr

/-- Put a character in front of segments. -/
def Seg.push (c : Char) (gs : List Seg) : List Seg :=
  if c = '`' then
    match gs with
    | .run n :: rest => .run (n + 1) :: rest
    | gs => .run 1 :: gs
  else .ch c :: gs

/-- The segments of a line. -/
def segs : Text → List Seg
  | [] => []
  | c :: cs => Seg.push c (segs cs)

/-- The line with these segments. -/
def unsegs : List Seg → Text
  | [] => []
  | .run n :: gs => List.replicate n '`' ++ unsegs gs
  | .ch c :: gs => c :: unsegs gs

/-- The intended markup: a backtick that stands alone is an opening or a closing tag, in turn;
all the rest is unchanged. `k` is the number of tags already written. -/
def markup (k : Nat) : List Seg → Text
  | [] => []
  | .run 1 :: gs => (if k % 2 = 0 then ['<', 'c', '>'] else ['<', '/', 'c', '>']) ++ markup (k + 1) gs
  | .run n :: gs => List.replicate n '`' ++ markup k gs
  | .ch c :: gs => c :: markup k gs

/-- A run of 4, 7, 10, … backticks is treated as a lone backtick after a run of 3, 6, 9, … backticks. -/
def asTreated : List Seg → List Seg
  | [] => []
  | .run n :: gs => (if n % 3 = 1 ∧ n ≠ 1 then [.run (n - 1), .run 1] else [.run n]) ++ asTreated gs
  | .ch c :: gs => .ch c :: asTreated gs

/-- The number of backticks that stand alone. -/
def singles (gs : List Seg) : Nat := gs.countP (· = .run 1)

inductive Tag | opening | closing
  deriving DecidableEq, Repr

/-- The `<c>` and `</c>` tags of a text, in order. -/
def tags : Text → List Tag
  | '<' :: 'c' :: '>' :: cs => .opening :: tags cs
  | '<' :: '/' :: 'c' :: '>' :: cs => .closing :: tags cs
  | _ :: cs => tags cs
  | [] => []

end Verif.Headers
