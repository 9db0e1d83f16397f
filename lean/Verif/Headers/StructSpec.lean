import Verif.Headers.DocsSpec
/-!
# Specification: the members of a struct

Readers for the struct definitions of the headers: what stands between the braces, without comments,
cut at the semicolons; and for C# the parts of a member. A C member is read with the declarator grammar
of CDecl.lean.
-/
namespace Verif.Headers
open Text

/-- Two lists have the same length, and their elements are related one by one. -/
inductive All₂ {α β : Type} (R : α → β → Prop) : List α → List β → Prop
  | nil : All₂ R [] []
  | cons {a b as bs} : R a b → All₂ R as bs → All₂ R (a :: as) (b :: bs)

/-- The members between the first `{` and the next `}`, each ended by a semicolon. -/
def members (text : Text) : Option (List Text) :=
  match splitOnce '{' (code .code text) with
  | none => none
  | some (_, r) => match splitOnce '}' r with
    | none => none
    | some (body, _) => if trim ((split ';' body).getLastD []) = [] then some (split ';' body).dropLast else none

/-- `public T name`: the type and the name. -/
def csDeclared (s : Text) : Option (Text × Text) :=
  if ['p', 'u', 'b', 'l', 'i', 'c', ' '].isPrefixOf s then rsplitOnce ' ' (s.drop 7) else none

/-- A C# member: the attribute, the type and the name. -/
def csMember (piece : Text) : Option (Option Text × Text × Text) :=
  match trimStart piece with
  | '[' :: s => match splitOnce ']' s with
    | none => none
    | some (a, r) => (csDeclared (trimStart r)).map fun x => (some ('[' :: a ++ [']']), x.1, x.2)
  | s => (csDeclared s).map fun x => (none, x.1, x.2)

end Verif.Headers
