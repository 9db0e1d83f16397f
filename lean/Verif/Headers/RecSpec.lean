import Verif.Headers.GenSpec
/-!
# Specification: programs with recursive types

Types that are recursive through pointers. The names have levels; a definition mentions only names of its
own level or lower ones. So the types that mention each other have the same level, and the levels of all
others can be made distinct.
-/
namespace Verif.Headers
open Text

mutual
/-- The type mentions only names up to the level `bound`. As `fits` (`GenSpec.lean`), but types may mention
types of the same level. The headers for integers and `bool`, and the aliases that the language replaces by
what they stand for, are below. -/
def within (b : Nat → Text) (o : Order) (lang : Lang) (bound : Nat) : CTy → Prop
  | .int k => lang = .csharp ∨ k ≠ .isize ∧ o.rank t!"__int_headers__" < bound ∧ o.kind t!"__int_headers__" = .type
  | .bool => lang = .csharp ∨ o.rank t!"bool" < bound ∧ o.kind t!"bool" = .type
  | .float => True
  | .double => True
  | .cint => True
  | .cchar => True
  | .void => True
  | .array n item =>
      o.rank (short b (.array n item) ++ t!"_t") ≤ bound ∧ o.kind (short b (.array n item) ++ t!"_t") = .type ∧
      (lang = .csharp → csWords b item = true) ∧ within b o (legacy lang) (o.rank (short b (.array n item) ++ t!"_t")) item
  | .fptr ret args =>
      (lang = .csharp → o.rank (short b (.fptr ret args)) ≤ bound ∧ o.kind (short b (.fptr ret args)) = .type) ∧
      (lang = .csharp → csWords b ret = true) ∧
      within b o (legacy lang) (if lang = .csharp then o.rank (short b (.fptr ret args)) else bound) ret ∧
      withinAll b o (legacy lang) (if lang = .csharp then o.rank (short b (.fptr ret args)) else bound) args
  | .constPtr to => within b o (legacy lang) bound to
  | .mutPtr to => within b o (legacy lang) bound to
  | .alias rename _ inner =>
      (if lang = .c then o.rank (rename ++ t!"_t") ≤ bound else o.rank (rename ++ t!"_t") < bound) ∧
      o.kind (rename ++ t!"_t") = (if lang = .c then .type else .alias lang inner) ∧
      within b o lang (o.rank (rename ++ t!"_t")) inner
  | .adt i generics =>
      o.rank (short b (.adt i generics) ++ t!"_t") ≤ bound ∧ o.kind (short b (.adt i generics) ++ t!"_t") = .type ∧
      o.used lang i generics
def withinAll (b : Nat → Text) (o : Order) (lang : Lang) (bound : Nat) : List CTy → Prop
  | [] => True
  | x :: xs => (lang = .csharp → csWords b x = true) ∧ within b o lang bound x ∧ withinAll b o lang bound xs
end

/-- The declared types mention types of their own level at most, the exports those up to `bound`; no
function has the name of a type. -/
structure Levelled (P : Prog) (o : Order) (lang : Lang) (bound : Nat) (es : List Export) : Prop where
  decls : ∀ lang i g, o.used lang i g →
    withinAll P.base o lang (o.rank (short P.base (.adt i g) ++ t!"_t")) (parts (P.decl i g))
  exports : ∀ e ∈ es, withinAll P.base o lang bound e.types
  functions : ∀ f, .fn f ∈ es → o.kind f.name = .function

/-- A name is defined before it is mentioned, except for names that the definition of a type of no higher
level mentions. -/
def OrderedByLevel (P : Prog) (o : Order) (items : List Item) : Prop :=
  ∀ pre it post, items = pre ++ it :: post → ∀ n ∈ uses P it,
    (∃ it' ∈ pre, n ∈ provides P it') ∨ ∃ m, typeName P it = some m ∧ o.rank m ≤ o.rank n

/-- Every name that is mentioned is defined, before or after. -/
def AllDefined (P : Prog) (items : List Item) : Prop :=
  ∀ it ∈ items, ∀ n ∈ uses P it, ∃ it' ∈ items, n ∈ provides P it'

end Verif.Headers
