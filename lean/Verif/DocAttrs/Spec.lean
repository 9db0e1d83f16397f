import Verif.DocAttrs.Model
/-!
# Specification: attributes as they are written

`/// text` is `#[doc = " text"]`. The functions of the model are not used, only its types.
-/
namespace Verif.DocAttrs
open Verif.Headers

/-- An attribute is a documentation attribute if it is called `doc`, and nothing else. -/
def IsDoc (a : Attr) : Prop := a.path = ⟨false, [(['d', 'o', 'c'], false)]⟩

/-- Whether tokens start with `=`. -/
def Assigns (ts : List Tok) : Prop := ∃ rest, ts = .punct '=' :: rest

/-- An attribute as it is written: `#[doc = e]` or `#[doc = e,]`; another form of `doc`, such as
`#[doc(hidden)]`; or any other attribute. -/
inductive Written
  | text (e : Expr) (comma : Bool)
  | flag (ts : List Tok)
  | other (a : Attr)

/-- Its tokens. -/
def Written.attr : Written → Attr
  | .text e comma => ⟨⟨false, [(['d', 'o', 'c'], false)]⟩, .punct '=' :: (e ++ if comma then [.punct ','] else [])⟩
  | .flag ts => ⟨⟨false, [(['d', 'o', 'c'], false)]⟩, ts⟩
  | .other a => a

/-- The texts that are documentation, in the order in which they are written. -/
def texts : List Written → List Expr
  | [] => []
  | .text e _ :: ws => e :: texts ws
  | _ :: ws => texts ws

/-- The parser of expressions reads `e`, at the end of the tokens and before a comma. -/
def Reads (P : Parse) (e : Expr) : Prop := P e = some (e, []) ∧ P (e ++ [.punct ',']) = some (e, [.punct ','])

/-- The attribute is what it says to be. -/
def Written.Ok (P : Parse) : Written → Prop
  | .text e _ => Reads P e
  | .flag ts => ¬ Assigns ts
  | .other a => ¬ IsDoc a

/-- One of the attributes is a `#[doc = …]` that is not an expression, with or without a comma after it. -/
def Malformed (P : Parse) (as : List Attr) : Prop :=
  ∃ a ∈ as, IsDoc a ∧ ∃ ts, a.tokens = .punct '=' :: ts ∧ ∀ e, P ts ≠ some (e, []) ∧ P ts ≠ some (e, [.punct ','])

/-- An item as it is written: the attributes of its own, and those of its fields or variants. -/
structure Source where
  own : List Written
  members : List (List Written)

def Source.Ok (P : Parse) (s : Source) : Prop :=
  (∀ w ∈ s.own, w.Ok P) ∧ ∀ m ∈ s.members, ∀ w ∈ m, w.Ok P

def attrsOf (ws : List Written) : List Attr := ws.map Written.attr

/-- The lines of a comment in a C header: one for each line of the documentation. -/
def cLines (pad : Text) (lines : List Text) : Text :=
  lines.flatMap fun l =>
    pad ++ [' ', '*'] ++ (if Text.trim l = [] then [] else [' ', ' '] ++ Text.trim l) ++ ['\n']

end Verif.DocAttrs
