import Verif.Util.Text
/-!
# Writing header text

Model of the `out!` macro of `src/headers/languages/mod.rs` and of the `emit_docs` methods of
the three header languages. An emitter is the list of the texts it hands to the writer, one per
`write!` call.
-/
namespace Verif.Headers

/-- A string literal as a text. (language) The literals of src/headers/languages/{c,csharp,python}.rs. -/
abbrev t (s : String) : Text := s.toList

/-- A string literal as the list of its characters (unlike `t`, nothing is left to compute). -/
macro:max "t!" s:str : term => do
  let cs := s.getString.toList.map fun c => Lean.Syntax.mkCharLit c
  `([$(cs.toArray),*])

/-- src/headers/languages/mod.rs 53-61: `Display for Indentation`. The width is 4 at every
`Indentation::new` call site of the three languages. -/
def indent (depth : Nat) : Text := List.replicate (depth * 4) ' '

/-- `str::split_inclusive('\n')`: the pieces end after each `\n`; no empty last piece. (core)
src/headers/languages/mod.rs 337. -/
def splitInclusive : Text → List Text
  | [] => []
  | c :: cs =>
      if c = '\n' then [c] :: splitInclusive cs
      else match splitInclusive cs with
        | [] => [[c]]
        | p :: ps => (c :: p) :: ps

/-- `str::ends_with('\n')`. (core) src/headers/languages/mod.rs 339. -/
def endsNl (s : Text) : Bool := s.getLast? == some '\n'

/-- src/headers/languages/mod.rs 339-340: one piece of the formatted text is written without its
trailing white space, then its newline if it has one. -/
def outPiece (line : Text) : Text := Text.trimEnd line ++ (if endsNl line then ['\n'] else [])

/-- src/headers/languages/mod.rs 312-345: `out!(("a" "b" …))`. Each line is prefixed with the
indentation and ended with a newline, then the whole is cut at newlines; each piece is one `write!`. -/
def outLines (depth : Nat) (lines : List Text) : List Text :=
  (splitInclusive (lines.flatMap fun l => indent depth ++ l ++ ['\n'])).map outPiece

/-- The text written, when no write fails. Not in the code: what a writer has received after the calls of
src/headers/languages/mod.rs 340. -/
def flat (ws : List Text) : Text := ws.flatten

/-! ### Documentation -/

/-- src/headers/languages/c.rs 9-33: `C::emit_docs` -/
def cDocs (depth : Nat) (docs : List Text) : List Text :=
  if docs.isEmpty then outLines depth [t "/** <No documentation available> */"]
  else
    outLines depth [t "/** \\brief"] ++
    (docs.flatMap fun d =>
      let line := Text.trim d
      let sep := if line.isEmpty then [] else t "  "
      outLines depth [t " *" ++ sep ++ line]) ++
    outLines depth [t " */"]

/-- src/headers/languages/csharp.rs 26-43: the loop over the characters of a line. `parity` counts
the replaced backticks. -/
def csBackticks (parity : Nat) : Text → Text
  | [] => []
  | '`' :: '`' :: [] => ['`', '`']
  | '`' :: '`' :: c :: cs => '`' :: '`' :: c :: csBackticks parity cs
  | '`' :: cs => (if parity % 2 = 0 then t "<c>" else t "</c>") ++ csBackticks (parity + 1) cs
  | c :: cs => c :: csBackticks parity cs

/-- src/headers/languages/csharp.rs 24-45: the line is rewritten if it contains a backtick. -/
def csLine (line : Text) : Text := if line.contains '`' then csBackticks 0 line else line

/-- src/headers/languages/csharp.rs 9-51: `CSharp::emit_docs` -/
def csDocs (depth : Nat) (docs : List Text) : List Text :=
  if docs.isEmpty then []
  else
    outLines depth [t "/// <summary>"] ++
    (docs.flatMap fun d =>
      let line := csLine (Text.trim d)
      let sep := if line.isEmpty then [] else t " "
      outLines depth [t "///" ++ sep ++ line]) ++
    outLines depth [t "/// </summary>"]

/-- src/headers/languages/python.rs 10-20: `Python::emit_docs` -/
def pyDocs (_depth : Nat) (_docs : List Text) : List Text := []

/-- The three header languages: src/headers/languages/{c,csharp,python}.rs. -/
inductive Lang | c | csharp | python
  deriving DecidableEq, Repr

/-- `HeaderLanguage::emit_docs`. src/headers/languages/mod.rs 125-135, by the implementations cited above.
-/
def emitDocs : Lang → Nat → List Text → List Text
  | .c => cDocs
  | .csharp => csDocs
  | .python => pyDocs

end Verif.Headers
