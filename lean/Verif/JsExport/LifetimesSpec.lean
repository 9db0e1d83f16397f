import Verif.JsExport.Lifetimes
/-!
# Lifetimes of the parameters of JavaScript exports: specification
-/
namespace Verif.JsExport.Spec
open Verif.JsExport

/-- The lifetime `l` is written somewhere in the type. -/
inductive Occurs (l : Lt) : Tree → Prop
  | lt : Occurs l (.lt l)
  | ref {t} : Occurs l (.ref (some l) t)
  | inRef {o t} : Occurs l t → Occurs l (.ref o t)
  | var {vars t} : l ∈ vars → Occurs l (.bind vars t)
  | inBind {vars t} : Occurs l t → Occurs l (.bind vars t)
  | child {k cs c} : c ∈ cs → Occurs l c → Occurs l (.node k cs)

/-- A value of this type borrows from somewhere: some lifetime in it is neither `'static` nor bound by the type itself.
`bound`: names bound by an enclosing `for<…>`. `hr`: inside `Fn(…)` or `fn(…)`, where a lifetime left out is bound by
the function type. -/
inductive Borrows : (hr : Bool) → (bound : List String) → Tree → Prop
  | named {hr bound a} : a ∉ bound → Borrows hr bound (.lt (.named a))
  | anon {bound} : Borrows false bound (.lt .anon)
  | refNamed {hr bound a t} : a ∉ bound → Borrows hr bound (.ref (some (.named a)) t)
  | refAnon {bound t} : Borrows false bound (.ref (some .anon) t)
  | refElided {bound t} : Borrows false bound (.ref none t)
  | referent {hr bound o t} : Borrows hr bound t → Borrows hr bound (.ref o t)
  | forBody {hr bound vars t} : Borrows hr (names vars ++ bound) t → Borrows hr bound (.bind vars t)
  | hidden {bound n cs} : Borrows false bound (.node (.angle n true) cs)
  | arg {hr bound n h cs c} : c ∈ cs → Borrows hr bound c → Borrows hr bound (.node (.angle n h) cs)
  | part {hr bound n cs c} : c ∈ cs → Borrows hr bound c → Borrows hr bound (.node (.other n) cs)
  | fnArg {hr bound n cs c} : c ∈ cs → Borrows true bound c → Borrows hr bound (.node (.paren n) cs)
  | fnPtrArg {hr bound cs c} : c ∈ cs → Borrows true bound c → Borrows hr bound (.node .fnPtr cs)

/-- A parameter type borrows from its caller. -/
def Borrowed (t : Tree) : Prop := Borrows false [] t

mutual
/-- The type without its lifetimes: what its layout depends on. -/
def skeleton : Tree → Tree
  | .lt _ => .lt .anon
  | .ref _ t => .ref none (skeleton t)
  | .bind vars t => .bind (vars.map fun _ => .anon) (skeleton t)
  | .node k cs => .node k (skeletonAll cs)
/-- All of them. -/
def skeletonAll : List Tree → List Tree
  | [] => []
  | t :: ts => skeleton t :: skeletonAll ts
end

mutual
/-- Outside `Fn(…)`, the type has no function pointer, no `for<…>`, and no lifetime parameter left unwritten. -/
def Plain : Tree → Bool
  | .lt _ => true
  | .ref _ t => Plain t
  | .bind _ _ => false
  | .node k cs =>
    match k with
    | .angle _ hidden => !hidden && PlainAll cs
    | .paren _ => true
    | .fnPtr => false
    | .other _ => PlainAll cs
/-- All of them. -/
def PlainAll : List Tree → Bool
  | [] => true
  | t :: ts => Plain t && PlainAll ts
end

/-- The type is meaningful where no lifetime is declared and lifetimes may be left out: every named one is bound inside. -/
def Meaningful (t : Tree) : Bool := resolves true [] t

/-- An argument of a path that is a lifetime. -/
def lifetimeArg : Tree → Bool
  | .lt _ => true
  | .ref _ _ | .bind _ _ | .node _ _ => false

mutual
/-- Lifetimes are only written in references and as arguments of paths: no `+ 'a`, no `for<…>`. -/
def RefsAndArgs : Tree → Bool
  | .lt _ => false
  | .ref _ t => RefsAndArgs t
  | .bind _ _ => false
  | .node k cs =>
    match k with
    | .angle _ _ => RefsAndArgsOrLt cs
    | _ => RefsAndArgsAll cs
/-- Arguments of a path: lifetimes, or such types. -/
def RefsAndArgsOrLt : List Tree → Bool
  | [] => true
  | t :: ts => (lifetimeArg t || RefsAndArgs t) && RefsAndArgsOrLt ts
/-- Such types. -/
def RefsAndArgsAll : List Tree → Bool
  | [] => true
  | t :: ts => RefsAndArgs t && RefsAndArgsAll ts
end

mutual
/-- The type without its lifetimes and without the lifetime arguments of paths. -/
def bare : Tree → Tree
  | .lt _ => .lt .anon
  | .ref _ t => .ref none (bare t)
  | .bind vars t => .bind (vars.map fun _ => .anon) (bare t)
  | .node k cs =>
    match k with
    | .angle n h => .node (.angle n h) (bareArgs cs)
    | k => .node k (bareAll cs)
/-- All of them. -/
def bareAll : List Tree → List Tree
  | [] => []
  | t :: ts => bare t :: bareAll ts
/-- All of them but the lifetimes. -/
def bareArgs : List Tree → List Tree
  | [] => []
  | t :: ts => if lifetimeArg t then bareArgs ts else bare t :: bareArgs ts
end

end Verif.JsExport.Spec
