import Verif.JsExport.Register
/-!
# JavaScript exports and their registration: specification
-/
namespace Verif.JsExport.Spec
open Verif.JsExport

/-- One attribute. -/
inductive Item
  | name (n : String)
  | skip
deriving DecidableEq, Repr

/-- How an attribute is written, with or without a comma after it. -/
def Item.render : Item × Bool → List Tok
  | (.name n, comma) => [.ident "js_name", .eq, .ident n] ++ if comma then [.comma] else []
  | (.skip, comma) => [.ident "__skip_napi_import"] ++ if comma then [.comma] else []

/-- The names given by a list of attributes. -/
def givenNames (items : List (Item × Bool)) : List String :=
  items.filterMap fun i => match i.1 with | .name n => some n | .skip => none

/-- The attribute says that the function is exported as `n` (`none`: under its own name). -/
def Says (toks : List Tok) (n : Option String) : Prop :=
  ∃ items : List (Item × Bool), toks = items.flatMap Item.render ∧ givenNames items = n.toList

/-- The variables a function declares, each with the argument at the same position, `undefined` when missing. -/
def Receives {V : Type} (undef : V) (params : List Pat) (args : List V) (env : List (String × V)) : Prop :=
  env.length = params.length ∧
  ∀ (i : Nat) (x : String), params[i]? = some (Pat.ident x) → env.lookup x = some (args[i]?.getD undef)

/-- The name JavaScript sees. -/
def Named {V : Type} (f : Fun V) (n : String) : Prop := ∃ o, Says f.attrs o ∧ n = o.getD f.name

end Verif.JsExport.Spec
