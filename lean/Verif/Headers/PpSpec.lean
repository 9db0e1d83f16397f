import Verif.Headers.GenSpec
/-!
# Specification: the C preprocessor

What a C or C++ compiler sees of a text: comments are removed, then conditional directives are resolved.
Independent of the model. Not considered: macros in the text itself, line splicing, string literals that
contain comment delimiters.
-/
namespace Verif.Headers
open Text

def blank (c : Char) : Bool := c == ' ' || c == '\t'

/-- The identifier at the start of a text. -/
def ident (s : Text) : Text := s.takeWhile isWordChar

/-- A line that is a directive: its keyword, and what follows it. -/
def directive (line : Text) : Option (Text × Text) :=
  match line.dropWhile blank with
  | '#' :: r => some (ident (r.dropWhile blank), ((r.dropWhile blank).dropWhile isWordChar).dropWhile blank)
  | _ => none

/-- An open conditional: whether the text around it is kept, whether one of its groups has been kept, and whether
the current one is. -/
structure Cond where
  outer : Bool
  taken : Bool
  now : Bool
  deriving DecidableEq, Repr

/-- `defs`: the names of the macros that are defined. `stack`: the open conditionals, innermost first. `out`: the
lines that are kept, without white space around them. -/
structure Pp where
  defs : List Text
  stack : List Cond
  out : List Text
  deriving DecidableEq, Repr

/-- Whether lines are kept. -/
def Pp.active (st : Pp) : Bool :=
  match st.stack with
  | [] => true
  | c :: _ => c.now

/-- A conditional is opened. -/
def Pp.push (st : Pp) (b : Bool) : Pp := { st with stack := ⟨st.active, b, st.active && b⟩ :: st.stack }

/-- Another group of a conditional. -/
def Cond.next (c : Cond) (b : Bool) : Cond := ⟨c.outer, c.taken || b, c.outer && !c.taken && b⟩

/-- A line is kept. -/
def Pp.keep (st : Pp) (line : Text) : Pp :=
  if st.active && !(trim line).isEmpty then { st with out := st.out ++ [trim line] } else st

/-- One line. `eval` is what the expressions of `#if` and `#elif` evaluate to. None: an error. Directives such as
`#include` are kept. -/
def Pp.step (eval : List Text → Text → Bool) (st : Pp) (line : Text) : Option Pp :=
  match directive line with
  | none => some (st.keep line)
  | some (k, r) =>
      if k = t!"ifdef" then some (st.push (decide (ident r ∈ st.defs)))
      else if k = t!"ifndef" then some (st.push (decide (ident r ∉ st.defs)))
      else if k = t!"if" then some (st.push (eval st.defs r))
      else if k = t!"elif" then
        match st.stack with
        | [] => none
        | c :: cs => some { st with stack := c.next (eval st.defs r) :: cs }
      else if k = t!"else" then
        match st.stack with
        | [] => none
        | c :: cs => some { st with stack := c.next true :: cs }
      else if k = t!"endif" then
        match st.stack with
        | [] => none
        | _ :: cs => some { st with stack := cs }
      else if k = t!"define" then some (if st.active then { st with defs := ident r :: st.defs } else st)
      else if k = t!"undef" then some (if st.active then { st with defs := st.defs.filter (· ≠ ident r) } else st)
      else some (st.keep line)

def Pp.run (eval : List Text → Text → Bool) : Pp → List Text → Option Pp
  | st, [] => some st
  | st, l :: ls => (st.step eval l).bind (·.run eval ls)

/-- The preprocessor reads a text. -/
def Pp.read (eval : List Text → Text → Bool) (st : Pp) (s : Text) : Option Pp := st.run eval (split '\n' (code .code s))

/-! ### Texts whose conditionals are closed -/

/-- The number of open conditionals after a line. None: there are too few. -/
def nest1 (d : Nat) (l : Text) : Option Nat :=
  match directive l with
  | none => some d
  | some (k, _) =>
      if k = t!"ifdef" ∨ k = t!"ifndef" ∨ k = t!"if" then some (d + 1)
      else if k = t!"elif" ∨ k = t!"else" then
        match d with
        | 0 => none
        | d + 1 => some (d + 1)
      else if k = t!"endif" then
        match d with
        | 0 => none
        | d + 1 => some d
      else some d

/-- The same, after some lines. -/
def nest : Nat → List Text → Option Nat
  | d, [] => some d
  | d, l :: ls => (nest1 d l).bind (nest · ls)

/-- The line does not undefine the macro. -/
def keeps (guard line : Text) : Bool :=
  match directive line with
  | some (k, r) => !(k == t!"undef" && ident r == guard)
  | none => true

/-- A text that can stand on lines of its own: its comments and conditionals are closed, and it does not undefine
the macro. -/
structure StandsAlone (guard s : Text) : Prop where
  comments : ∀ rest, code .code (s ++ '\n' :: rest) = code .code s ++ '\n' :: code .code rest
  nested : nest 0 (split '\n' (code .code s)) = some 0
  keep : ∀ l ∈ split '\n' (code .code s), keeps guard l = true

/-! ### The names and texts of a header -/

/-- Documentation that does not close its comment (see C47). -/
def DocsOk (docs : List Text) : Prop := ∀ d ∈ docs, ¬ Contains d ['*', '/']

/-- A value as written by `{:?}` without slashes, which could be comments, and on one line. -/
def ValueOk (s : Text) : Prop := '/' ∉ s ∧ '\n' ∉ s ∧ '#' ∉ s

/-- The names of a definition are words, its documentation closes no comment. -/
def DeclTexts (b : Nat → Text) : Decl → Prop
  | .struct docs _ fs => DocsOk docs ∧ ∀ f ∈ fs, DocsOk f.docs ∧ IsWord f.name ∧ wordsOk b f.ty = true
  | .enum docs _ vs => DocsOk docs ∧ ∀ v ∈ vs, DocsOk v.docs ∧ IsWord v.name ∧ ∀ d, v.disc = some d → ValueOk d
  | .opaque docs => DocsOk docs

/-- The same of an item. No constant is named like the macro of C++ compilers. -/
def ItemTexts (P : Prog) : Item → Prop
  | .type _ (.adt i generics) => wordsOk P.base (.adt i generics) = true ∧ DeclTexts P.base (P.decl i generics)
  | .type _ (.alias rename docs inner) => IsWord rename ∧ DocsOk docs ∧ wordsOk P.base inner = true
  | .type _ ty => wordsOk P.base ty = true
  | .func _ f => DocsOk f.docs ∧ IsWord f.name ∧ (∀ a ∈ f.args, IsWord a.name ∧ wordsOk P.base a.ty = true) ∧ wordsOk P.base f.ret = true
  | .const _ c => DocsOk c.docs ∧ IsWord c.name ∧ wordsOk P.base c.ty = true ∧ ValueOk c.value ∧ c.name ≠ t!"__cplusplus"
  | _ => True

/-- Whether an item is part of the frame of the header: its banner, its prelude or its epilogue. -/
def inFrame : Item → Bool
  | .text _ => true
  | _ => false

/-- The text of the types, constants and functions of a header. -/
def declarations (P : Prog) (items : List Item) : Text := flat ((items.filter fun it => !inFrame it).flatMap fun it => (render P it).writes)

end Verif.Headers
